import Verif.Props.Network

/-! # C94: nothing that is fed or fetched shares a tensor -/

namespace Verif

/-- The tensors an initializer feeds and runs. -/
def Init.tensors : Init → List Tensor
  | .global _ => []
  | .matrix _ i v u => [i, v, u]

/-- The tensors of a network under construction. -/
def NetSt.tensors (st : NetSt) : List Tensor :=
  st.inputs.entries.map Prod.snd ++ st.gold.entries.map Prod.snd ++ st.outputs.entries.map Prod.snd ++
    st.inits.flatMap Init.tensors

theorem assocSet_values {K V : Type} [DecidableEq K] (k : K) (v : V) (l : List (K × V)) :
    ((assocSet k v l).map Prod.snd).Subperm (v :: l.map Prod.snd) := by
  induction l with
  | nil => simp [assocSet]
  | cons p l ih =>
    unfold assocSet
    split
    · simp only [List.map_cons]
      exact (List.Sublist.cons_cons v (List.sublist_cons_self _ _)).subperm
    · simp only [List.map_cons]
      exact ((List.subperm_cons p.2).2 ih).trans (List.Perm.swap _ _ _).subperm

theorem updateList_values {K V : Type} [DecidableEq K] (l : List (K × V)) (d : Dict K V) :
    ((d.updateList l).entries.map Prod.snd).Subperm (d.entries.map Prod.snd ++ l.map Prod.snd) := by
  induction l generalizing d with
  | nil => simpa [Dict.updateList] using List.Subperm.refl _
  | cons p l ih =>
    have h1 := ih (d.set p.1 p.2)
    have h2 : ((d.set p.1 p.2).entries.map Prod.snd).Subperm (p.2 :: d.entries.map Prod.snd) :=
      assocSet_values p.1 p.2 d.entries
    refine h1.trans (((List.subperm_append_right _).2 h2).trans ?_)
    refine List.Perm.subperm ?_
    simp only [List.map_cons, List.cons_append]
    exact List.perm_middle.symm

theorem placeholders_values (gid n : Nat) (ks : List Str) :
    (placeholders gid n ks).map Prod.snd = (List.range' n ks.length).map (fun i => ⟨gid, natStr i⟩) := by
  induction ks generalizing n with
  | nil => rfl
  | cons k ks ih => simp only [placeholders, List.map_cons, ih, List.length_cons, List.range'_succ]

theorem matrixInits_values (gid n : Nat) (names : List Str) :
    (matrixInits gid n names).flatMap Init.tensors =
      (List.range' n (3 * names.length)).map (fun i => ⟨gid, natStr i⟩) := by
  have key : ∀ (names : List Str) (j : Nat),
      ((names.zipIdx j).map (fun p => Init.matrix p.1 ⟨gid, natStr (n + 3 * p.2)⟩
        ⟨gid, natStr (n + 3 * p.2 + 1)⟩ ⟨gid, natStr (n + 3 * p.2 + 2)⟩)).flatMap Init.tensors =
      (List.range' (n + 3 * j) (3 * names.length)).map (fun i => ⟨gid, natStr i⟩) := by
    intro names
    induction names with
    | nil => intro j; rfl
    | cons a names ih =>
      intro j
      have e : 3 * (a :: names).length = 3 * names.length + 1 + 1 + 1 := by simp [Nat.mul_add]
      rw [e, List.range'_succ, List.range'_succ, List.range'_succ]
      simp only [List.zipIdx_cons, List.map_cons, List.flatMap_cons, Init.tensors, ih (j + 1), Nat.mul_add, Nat.mul_one,
        List.cons_append, List.nil_append]
      rfl
  exact key names 0

theorem taskStep_tensors (gid : Nat) (shared : Dict Str Tensor) (st : NetSt) (t : TaskCfg) :
    (taskStep gid shared st t).tensors.Subperm (st.tensors ++
      (List.range' st.next (t.inputs.length + 2 + 3 * t.inits.length)).map (fun i => ⟨gid, natStr i⟩)) := by
  have h1 := updateList_values (placeholders gid st.next t.inputs) st.inputs
  rw [placeholders_values] at h1
  have h2 : ((st.gold.set t.label ⟨gid, natStr (st.next + t.inputs.length)⟩).entries.map Prod.snd).Subperm
      (⟨gid, natStr (st.next + t.inputs.length)⟩ :: st.gold.entries.map Prod.snd) := assocSet_values _ _ _
  have h3 : ((st.outputs.set t.label ⟨gid, natStr (st.next + t.inputs.length + 1)⟩).entries.map Prod.snd).Subperm
      (⟨gid, natStr (st.next + t.inputs.length + 1)⟩ :: st.outputs.entries.map Prod.snd) := assocSet_values _ _ _
  have h4 : ((taskStep gid shared st t).inits).flatMap Init.tensors = st.inits.flatMap Init.tensors ++
      (List.range' (st.next + t.inputs.length + 2) (3 * t.inits.length)).map (fun i => ⟨gid, natStr i⟩) := by
    simp only [taskStep, List.flatMap_append, matrixInits_values]
  have e : (List.range' st.next (t.inputs.length + 2 + 3 * t.inits.length)).map (fun i => (⟨gid, natStr i⟩ : Tensor)) =
      (List.range' st.next t.inputs.length).map (fun i => ⟨gid, natStr i⟩) ++
      (⟨gid, natStr (st.next + t.inputs.length)⟩ :: ⟨gid, natStr (st.next + t.inputs.length + 1)⟩ ::
      (List.range' (st.next + t.inputs.length + 2) (3 * t.inits.length)).map (fun i => ⟨gid, natStr i⟩)) := by
    rw [Nat.add_assoc, ← List.range'_append_1, List.map_append, Nat.add_comm 2, List.range'_succ, List.range'_succ]
    rfl
  unfold NetSt.tensors
  rw [h4, e]
  have h5 := ((h1.append h2).append h3).append
    (List.Subperm.refl (st.inits.flatMap Init.tensors ++
      (List.range' (st.next + t.inputs.length + 2) (3 * t.inits.length)).map (fun i => (⟨gid, natStr i⟩ : Tensor))))
  refine h5.trans (List.Perm.subperm ?_)
  classical
  rw [List.perm_iff_count]
  intro a
  simp only [List.count_append, List.count_cons]
  omega

theorem wire_tensors (gid : Nat) (c : NetCfg) :
    (wire gid c).tensors.Subperm ((List.range (wire gid c).next).map (fun i => ⟨gid, natStr i⟩)) := by
  have hinit : (sharedPart gid c.features).tensors.Subperm
      ((List.range (sharedPart gid c.features).next).map (fun i => ⟨gid, natStr i⟩)) := by
    have h1 := updateList_values (placeholders gid 2 c.features.inputs) (Dict.empty : Dict Str Tensor)
    have h2 := updateList_values (placeholders gid 0 [kDropout, kLr]) (Dict.empty : Dict Str Tensor)
    rw [placeholders_values] at h1 h2
    have h5 := ((h1.append h2).append (List.Subperm.refl ([] : List Tensor))).append
      (List.Subperm.refl ((matrixInits gid (2 + c.features.inputs.length) c.features.inits).flatMap Init.tensors))
    refine (show (sharedPart gid c.features).tensors.Subperm _ from h5).trans (List.Perm.subperm ?_)
    rw [matrixInits_values]
    have e : (sharedPart gid c.features).next = 2 + (c.features.inputs.length + 3 * c.features.inits.length) := by
      simp only [sharedPart]; omega
    rw [e, List.range_eq_range', ← List.range'_append_1, ← List.range'_append_1, List.map_append, List.map_append]
    classical
    rw [List.perm_iff_count]
    intro a
    simp only [List.count_append, Dict.empty, List.map_nil, List.count_nil, Nat.zero_add, List.length_cons,
      List.length_nil, Nat.reduceAdd]
    omega
  have hstep : ∀ (ts : List TaskCfg) (st : NetSt),
      st.tensors.Subperm ((List.range st.next).map (fun i => ⟨gid, natStr i⟩)) →
      (ts.foldl (taskStep gid (sharedPart gid c.features).inputs) st).tensors.Subperm
        ((List.range (ts.foldl (taskStep gid (sharedPart gid c.features).inputs) st).next).map
          (fun i => ⟨gid, natStr i⟩)) := by
    intro ts
    induction ts with
    | nil => intro st h; exact h
    | cons t ts ih =>
      intro st h
      refine ih _ ((taskStep_tensors gid _ st t).trans ?_)
      have e : (taskStep gid (sharedPart gid c.features).inputs st t).next =
          st.next + (t.inputs.length + 2 + 3 * t.inits.length) := by
        simp only [taskStep]; omega
      have e2 : List.range (st.next + (t.inputs.length + 2 + 3 * t.inits.length)) =
          List.range st.next ++ List.range' st.next (t.inputs.length + 2 + 3 * t.inits.length) := by
        have := List.range'_append_1 (s := 0) (m := st.next) (n := t.inputs.length + 2 + 3 * t.inits.length)
        rw [Nat.zero_add] at this
        rw [List.range_eq_range', List.range_eq_range', this]
      rw [e, e2, List.map_append]
      exact (List.subperm_append_right _).2 h
  exact hstep c.tasks _ hinit

/-- C94: no two of the things that are fed or fetched by name share a tensor: inputs, labels, outputs, the loss and
what the initializers of pretrained vectors feed and run. -/
theorem C94_own_tensors (gid : Nat) (c : NetCfg) (nn : NN) (g : TfGraph) (used : List Tensor)
    (h : buildNetwork gid c = .ok (nn, g, used)) :
    (nn.inputs.entries.map Prod.snd ++ nn.gold.entries.map Prod.snd ++ nn.outputs.entries.map Prod.snd ++
      nn.initializers.flatMap Init.tensors ++ [nn.loss]).Nodup := by
  unfold buildNetwork at h
  split at h
  · cases h
  · injection h with h
    injection h with h _
    subst h
    have hsub := (wire_tensors gid c).append (List.Subperm.refl [(⟨gid, natStr (wire gid c).next⟩ : Tensor)])
    have e : (List.range (wire gid c).next).map (fun i => (⟨gid, natStr i⟩ : Tensor)) ++
        [⟨gid, natStr (wire gid c).next⟩] = (List.range ((wire gid c).next + 1)).map (fun i => ⟨gid, natStr i⟩) := by
      rw [List.range_succ, List.map_append]; rfl
    rw [e] at hsub
    have hnd : ((List.range ((wire gid c).next + 1)).map (fun i => (⟨gid, natStr i⟩ : Tensor))).Nodup := by
      refine List.nodup_range.map ?_
      intro a b hab
      injection hab with _ hab
      exact natStr_inj hab
    obtain ⟨l, hl, hs⟩ := hsub
    exact hl.nodup_iff.1 (hs.nodup hnd)

/-- A network with pretrained vectors of words and characters: three tensors for each of them. -/
example : ((buildNetwork 0 (Demo.net (.bilstmCnn 70 1 none [⟨3, 50, 1⟩])
      [{ Demo.combo ⟨3, 51, 1⟩ with pretrained := true }])).map
      (fun r => (r.1.inputs.keys.length, r.1.gold.keys.length, r.1.outputs.keys.length,
        (r.1.initializers.flatMap Init.tensors).length))) = .ok (4, 3, 1, 6) := by decide +kernel

end Verif
