import Verif.Spec.Network
import Verif.Proofs.Pipeline3
import Verif.Props.Features

/-!
# Proofs about networks
-/

namespace Verif

theorem mapFst {α β γ : Type} (l : List (α × β)) (f : β → γ) :
    (l.map (fun p => (p.1, f p.2))).map Prod.fst = l.map Prod.fst := by
  simp [List.map_map, Function.comp_def]

theorem assocGet_mapV {K V W : Type} [DecidableEq K] (l : List (K × V)) (f : V → W) (k : K) :
    assocGet k (l.map (fun p => (p.1, f p.2))) = (assocGet k l).map f := by
  induction l with
  | nil => rfl
  | cons p l ih =>
    obtain ⟨k', v⟩ := p
    simp only [List.map_cons, assocGet]
    split
    · rfl
    · exact ih

theorem Dict.get?_mapV {K V W : Type} [DecidableEq K] (d : Dict K V) (f : V → W) (k : K) :
    (Dict.ofList (d.entries.map (fun p => (p.1, f p.2)))).get? k = (d.get? k).map f := by
  have hn : ((d.entries.map (fun p => (p.1, f p.2))).map Prod.fst).Nodup := by
    rw [mapFst]; exact d.nodup
  unfold Dict.get?
  rw [Dict.ofList_entries _ hn]
  exact assocGet_mapV _ _ _

theorem tensor2name_entries (d : Dict Str Tensor) :
    (tensor2name d).entries = d.entries.map (fun p => (p.1, p.2.name)) := by
  apply Dict.ofList_entries
  rw [mapFst]
  exact d.nodup

/-- Looking up the names of a dictionary. -/
theorem name2tensor_of (g : TfGraph) (d : Dict Str Tensor) :
    ((∀ k t, d.get? k = some t → t.name ∈ g.tensors) ∧
      name2tensor g (tensor2name d) =
        .ok (Dict.ofList (d.entries.map (fun p => (p.1, g.twin p.2))))) ∨
    ((∃ k t, d.get? k = some t ∧ t.name ∉ g.tensors) ∧
      name2tensor g (tensor2name d) = .error .key) := by
  have h1 : ∀ l : List (Str × Tensor),
      ((∀ p ∈ l, p.2.name ∈ g.tensors) ∧ mapM' (nameEntry g) (l.map (fun p => (p.1, p.2.name))) =
        .ok (l.map (fun p => (p.1, g.twin p.2)))) ∨
      ((∃ p ∈ l, p.2.name ∉ g.tensors) ∧ mapM' (nameEntry g) (l.map (fun p => (p.1, p.2.name))) =
        .error .key) := by
    intro l
    induction l with
    | nil => exact Or.inl ⟨by simp, rfl⟩
    | cons p l ih =>
      by_cases hp : p.2.name ∈ g.tensors
      · rcases ih with ⟨h2, h3⟩ | ⟨⟨q, hq, hq2⟩, h3⟩
        · left
          refine ⟨?_, ?_⟩
          · intro q hq
            rcases List.mem_cons.mp hq with rfl | hq
            · exact hp
            · exact h2 q hq
          · simp only [List.map_cons, mapM', nameEntry, TfGraph.tensorByName, hp, if_true, h3]
            rfl
        · right
          refine ⟨⟨q, by simp [hq], hq2⟩, ?_⟩
          simp only [List.map_cons, mapM', nameEntry, TfGraph.tensorByName, hp, if_true, h3]
      · right
        refine ⟨⟨p, by simp, hp⟩, ?_⟩
        simp only [List.map_cons, mapM', nameEntry, TfGraph.tensorByName, hp, if_false]
  unfold name2tensor
  rw [tensor2name_entries]
  rcases h1 d.entries with ⟨h2, h3⟩ | ⟨⟨q, hq, hq2⟩, h3⟩
  · left
    refine ⟨fun k t hk => h2 (k, t) (Dict.get?_mem.mp hk), ?_⟩
    rw [h3]
  · right
    refine ⟨⟨q.1, q.2, Dict.get?_mem.mpr hq, hq2⟩, ?_⟩
    rw [h3]

theorem Init.attach_mapping (g : TfGraph) (i : Init) :
    (i.NamedIn g ∧ i.mapping.attach g = .ok (g.twinInit i)) ∨
    (¬ i.NamedIn g ∧ i.mapping.attach g = .error .key) := by
  cases i with
  | global op =>
    by_cases h : op.name ∈ g.ops
    · exact Or.inl ⟨h, by simp [Init.mapping, InitMapping.attach, TfGraph.opByName, h, TfGraph.twinInit, TfGraph.twinOp]⟩
    · exact Or.inr ⟨h, by simp [Init.mapping, InitMapping.attach, TfGraph.opByName, h]⟩
  | matrix p a b c =>
    by_cases h1 : a.name ∈ g.tensors <;> by_cases h2 : b.name ∈ g.tensors <;>
      by_cases h3 : c.name ∈ g.tensors <;>
      simp [Init.NamedIn, Init.mapping, InitMapping.attach, TfGraph.tensorByName, h1, h2, h3,
        TfGraph.twinInit, TfGraph.twin]

theorem Init.attach_all (g : TfGraph) (is : List Init) :
    ((∀ i ∈ is, i.NamedIn g) ∧ mapM' (InitMapping.attach g) (is.map Init.mapping) =
      .ok (is.map g.twinInit)) ∨
    (¬ (∀ i ∈ is, i.NamedIn g) ∧ mapM' (InitMapping.attach g) (is.map Init.mapping) = .error .key) := by
  induction is with
  | nil => exact Or.inl ⟨by simp, rfl⟩
  | cons i is ih =>
    rcases Init.attach_mapping g i with ⟨h1, h2⟩ | ⟨h1, h2⟩
    · rcases ih with ⟨h3, h4⟩ | ⟨h3, h4⟩
      · left
        refine ⟨by simpa using ⟨h1, h3⟩, ?_⟩
        simp only [List.map_cons, mapM', h2, h4]
      · right
        refine ⟨fun h => h3 (fun j hj => h j (by simp [hj])), ?_⟩
        simp only [List.map_cons, mapM', h2, h4]
    · right
      refine ⟨fun h => h1 (h i (by simp)), ?_⟩
      simp only [List.map_cons, mapM', h2]

/-- Attaching succeeds exactly if all names are there; otherwise `KeyError` is raised. -/
theorem NN.attach_mapping (g : TfGraph) (nn : NN) :
    (nn.NamedIn g ∧ ∃ nn', nn.mapping.attach g = .ok nn' ∧ Reattached g nn nn' ∧
      nn'.inputs.keys = nn.inputs.keys ∧ nn'.outputs.entries = nn.outputs.entries.map (fun p => (p.1, g.twin p.2))) ∨
    (¬ nn.NamedIn g ∧ nn.mapping.attach g = .error .key) := by
  unfold NNMapping.attach NN.mapping
  simp only
  rcases name2tensor_of g nn.inputs with ⟨a1, a2⟩ | ⟨⟨k, t, a0, a1⟩, a2⟩
  swap
  · rw [a2]
    exact Or.inr ⟨fun h => a1 (h.inputs k t a0), rfl⟩
  rw [a2]
  rcases name2tensor_of g nn.outputs with ⟨b1, b2⟩ | ⟨⟨k, t, b0, b1⟩, b2⟩
  swap
  · rw [b2]
    exact Or.inr ⟨fun h => b1 (h.outputs k t b0), rfl⟩
  rw [b2]
  rcases name2tensor_of g nn.gold with ⟨c1, c2⟩ | ⟨⟨k, t, c0, c1⟩, c2⟩
  swap
  · rw [c2]
    exact Or.inr ⟨fun h => c1 (h.gold k t c0), rfl⟩
  rw [c2]
  by_cases d1 : nn.optimizer.name ∈ g.ops
  swap
  · simp only [TfGraph.opByName, d1, if_false]
    exact Or.inr ⟨fun h => d1 h.optimizer, trivial⟩
  by_cases e1 : nn.loss.name ∈ g.tensors
  swap
  · simp only [TfGraph.opByName, d1, if_true, TfGraph.tensorByName, e1, if_false]
    exact Or.inr ⟨fun h => e1 h.loss, trivial⟩
  simp only [TfGraph.opByName, d1, if_true, TfGraph.tensorByName, e1]
  rcases Init.attach_all g nn.initializers with ⟨f1, f2⟩ | ⟨f1, f2⟩
  swap
  · rw [f2]
    exact Or.inr ⟨fun h => f1 h.initializers, rfl⟩
  rw [f2]
  refine Or.inl ⟨⟨a1, b1, c1, d1, e1, f1⟩, _, rfl,
    ⟨fun k => Dict.get?_mapV _ _ _, fun k => Dict.get?_mapV _ _ _, fun k => Dict.get?_mapV _ _ _,
      rfl, rfl, rfl⟩, ?_, ?_⟩
  · show (Dict.ofList (nn.inputs.entries.map (fun p => (p.1, g.twin p.2)))).entries.map Prod.fst = _
    rw [Dict.ofList_entries _ (by rw [mapFst]; exact nn.inputs.nodup), mapFst]
    rfl
  · rw [Dict.ofList_entries _ (by rw [mapFst]; exact nn.outputs.nodup)]

/-! ### Feed dictionaries -/

theorem fillDict_list {V : Type} (keys : Dict Str Tensor) (l : List (Str × V)) (r : Dict Tensor V) :
    ((∀ p ∈ l, p.1 ∈ keys.keys) ∧ ∃ ps, List.Forall₂ (fun (p : Str × V) (q : Tensor × V) =>
        keys.get? p.1 = some q.1 ∧ q.2 = p.2) l ps ∧
      forM' (fillEntry keys) r l = .ok (r.updateList ps)) ∨
    ((∃ p ∈ l, p.1 ∉ keys.keys) ∧ forM' (fillEntry keys) r l = .error .key) := by
  induction l generalizing r with
  | nil => exact Or.inl ⟨by simp, [], .nil, rfl⟩
  | cons p l ih =>
    cases hp : keys.get? p.1 with
    | none =>
      right
      refine ⟨⟨p, by simp, Dict.get?_none.mp hp⟩, ?_⟩
      simp only [forM', fillEntry, Dict.getItem, hp]
    | some t =>
      have hk : p.1 ∈ keys.keys := Dict.get?_isSome.mp (by rw [hp]; rfl)
      rcases ih (r.set t p.2) with ⟨h1, ps, h2, h3⟩ | ⟨⟨q, hq, hq2⟩, h3⟩
      · left
        refine ⟨?_, (t, p.2) :: ps, .cons ⟨hp, rfl⟩ h2, ?_⟩
        · intro q hq
          rcases List.mem_cons.mp hq with rfl | hq
          · exact hk
          · exact h1 q hq
        · simp only [forM', fillEntry, Dict.getItem, hp, h3]
          rfl
      · right
        refine ⟨⟨q, by simp [hq], hq2⟩, ?_⟩
        simp only [forM', fillEntry, Dict.getItem, hp, h3]

/-- Filling in the values, if different keys stand for different tensors. -/
theorem fillDict_ok {V : Type} {keys : Dict Str Tensor} (hinj : OneToOne keys) {values : Dict Str V}
    (hk : ∀ k ∈ values.keys, k ∈ keys.keys) :
    ∃ d, fillDict keys values = .ok d ∧
      ∀ t v, d.get? t = some v ↔ ∃ k, keys.get? k = some t ∧ values.get? k = some v := by
  unfold fillDict
  rcases fillDict_list keys values.entries (Dict.empty : Dict Tensor V) with ⟨_, ps, h2, h3⟩ | ⟨⟨q, hq, hq2⟩, _⟩
  swap
  · exact absurd (hk q.1 (List.mem_map_of_mem hq)) hq2
  refine ⟨_, h3, fun t v => ?_⟩
  have hmem : ∀ t v, (t, v) ∈ ps ↔ ∃ k, keys.get? k = some t ∧ values.get? k = some v := by
    intro t v
    constructor
    · intro h
      obtain ⟨p, hp, e1, e2⟩ := forall₂_mem_right h2 h
      refine ⟨p.1, e1, Dict.get?_mem.mpr ?_⟩
      rw [show v = p.2 from e2]
      exact hp
    · rintro ⟨k, e1, e2⟩
      have hm := Dict.get?_mem.mp e2
      obtain ⟨j, hj, hje⟩ := List.mem_iff_getElem.mp hm
      have h4 := forall₂_getElem?.mp h2
      have hjp : j < ps.length := h4.1 ▸ hj
      have h5 := h4.2 j (k, v) ps[j] (by rw [List.getElem?_eq_getElem hj, hje]) (List.getElem?_eq_getElem hjp)
      have h6 : ps[j] = (t, v) := by
        have := h5.1
        rw [e1] at this
        injection this with this
        exact Prod.ext this.symm h5.2
      rw [← h6]
      exact List.getElem_mem hjp
  have hnd : (ps.map Prod.fst).Nodup := by
    rw [List.nodup_iff_getElem?_ne_getElem?]
    intro i j hij hj he
    rw [List.length_map] at hj
    have h4 := forall₂_getElem?.mp h2
    have hjv : j < values.entries.length := h4.1 ▸ hj
    have hi1 := h4.2 i _ _ (List.getElem?_eq_getElem (show i < values.entries.length by omega))
      (List.getElem?_eq_getElem (show i < ps.length by omega))
    have hj1 := h4.2 j _ _ (List.getElem?_eq_getElem hjv) (List.getElem?_eq_getElem hj)
    rw [List.getElem?_map, List.getElem?_map, List.getElem?_eq_getElem hj,
      List.getElem?_eq_getElem (show i < ps.length by omega)] at he
    simp only [Option.map_some, Option.some.injEq] at he
    rw [he] at hi1
    have hkk := hinj _ _ _ hi1.1 hj1.1
    have hn := List.nodup_iff_getElem?_ne_getElem?.mp values.nodup i j hij (by simpa using hjv)
    rw [List.getElem?_map, List.getElem?_map, List.getElem?_eq_getElem hjv,
      List.getElem?_eq_getElem (show i < values.entries.length by omega)] at hn
    exact hn (by simp [hkk])
  rw [← hmem]
  have h7 : (Dict.empty : Dict Tensor V).updateList ps = Dict.ofList ps := rfl
  rw [h7, Dict.get?_mem, Dict.ofList_entries _ hnd]

theorem fillDict_error {V : Type} {keys : Dict Str Tensor} {values : Dict Str V} {k : Str}
    (hk : k ∈ values.keys) (hn : k ∉ keys.keys) : fillDict keys values = .error .key := by
  unfold fillDict
  rcases fillDict_list keys values.entries (Dict.empty : Dict Tensor V) with ⟨h1, _⟩ | ⟨_, h2⟩
  · obtain ⟨p, hp, rfl⟩ := List.mem_map.mp hk
    exact absurd (h1 p hp) hn
  · exact h2

end Verif
