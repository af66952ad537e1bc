import Verif.Proofs.FeaturesMerge

/-! # Merged builders extract the same features -/

namespace Verif

/-! ### dictionaries -/

abbrev Disj (d e : Features) : Prop := ∀ k, k ∈ d.keys → k ∉ e.keys

theorem SameDict.refl {V : Type} (d : Dict Str V) : SameDict d d := fun _ => rfl

theorem SameDict.trans {V : Type} {d e f : Dict Str V} (h1 : SameDict d e) (h2 : SameDict e f) :
    SameDict d f := fun k => (h1 k).trans (h2 k)

theorem SameDict.symm {V : Type} {d e : Dict Str V} (h1 : SameDict d e) : SameDict e d :=
  fun k => (h1 k).symm

theorem SameDict.keys {V : Type} {d e : Dict Str V} (h : SameDict d e) (k : Str) :
    k ∈ d.keys ↔ k ∈ e.keys := by
  rw [← Dict.get?_isSome, ← Dict.get?_isSome, h k]

theorem get?_append {D D1 D2 : Features} (h : D.entries = D1.entries ++ D2.entries) (k : Str) :
    D.get? k = (D1.get? k).or (D2.get? k) := by
  unfold Dict.get?
  rw [h]
  generalize D1.entries = l
  induction l with
  | nil => simp [assocGet]
  | cons p l ih =>
    simp only [List.cons_append, assocGet]
    split
    · simp
    · exact ih

theorem keys_append {D D1 D2 : Features} (h : D.entries = D1.entries ++ D2.entries) (k : Str) :
    k ∈ D.keys ↔ k ∈ D1.keys ∨ k ∈ D2.keys := by
  simp [Dict.keys, h]

theorem sameDict_append {D D1 D2 E E1 E2 : Features} (h : D.entries = D1.entries ++ D2.entries)
    (h' : E.entries = E1.entries ++ E2.entries) (h1 : SameDict D1 E1) (h2 : SameDict D2 E2) :
    SameDict D E := by
  intro k
  rw [get?_append h, get?_append h', h1 k, h2 k]

theorem Disj.congr {d e d' e' : Features} (h : Disj d e) (h1 : SameDict d d')
    (h2 : SameDict e e') : Disj d' e' := by
  intro k hk hk'
  exact h k ((h1.keys k).2 hk) ((h2.keys k).2 hk')

theorem exists_append {D1 D2 : Features} (h : Disj D1 D2) :
    ∃ D : Features, D.entries = D1.entries ++ D2.entries := by
  obtain ⟨r, _, hr⟩ := mergeStep_ok h
  exact ⟨r, hr⟩

theorem disj_empty (d : Features) : Disj d Dict.empty := by
  intro k _ hk
  simp [Dict.keys, Dict.empty] at hk

theorem empty_disj (d : Features) : Disj Dict.empty d := by
  intro k hk
  simp [Dict.keys, Dict.empty] at hk

theorem dict_eq_empty {D : Features} (h : D.entries = []) : D = Dict.empty := Dict.ext (by simpa [Dict.empty] using h)

/-! ### composite extraction, one part at a time -/

theorem mapM'_cons_ok {α β : Type} {f : α → Res β} {a : α} {l : List α} {r : List β} :
    mapM' f (a :: l) = .ok r ↔ ∃ b bs, f a = .ok b ∧ mapM' f l = .ok bs ∧ r = b :: bs := by
  simp only [mapM']
  cases f a with
  | error e => simp
  | ok b =>
    cases mapM' f l with
    | error e => simp
    | ok bs => simp [eq_comm]

theorem compX_ok {xs : List Extractor} {o : Obj} {D : Features} :
    compX xs o = .ok D ↔ ∃ ds, mapM' (fun x => x o) xs = .ok ds ∧ DisjointKeys ds ∧
      D.entries = ds.flatMap (fun d => d.entries) := by
  simp only [compX]
  cases mapM' (fun x => x o) xs with
  | error e => simp
  | ok ds =>
    simp only [Except.ok.injEq, exists_eq_left']
    by_cases h : DisjointKeys ds
    · obtain ⟨r, hr, hre⟩ := mergeDicts_ok h
      rw [hr]
      simp only [Except.ok.injEq, h, true_and]
      constructor
      · rintro rfl; exact hre
      · intro hD; exact Dict.ext (by rw [hre, hD])
    · simp [mergeDicts_error h, h]

theorem compX_nil (o : Obj) : compX [] o = .ok Dict.empty := rfl

theorem compX_cons {x : Extractor} {xs : List Extractor} {o : Obj} {D : Features} :
    compX (x :: xs) o = .ok D ↔ ∃ D1 D2, x o = .ok D1 ∧ compX xs o = .ok D2 ∧ Disj D1 D2 ∧
      D.entries = D1.entries ++ D2.entries := by
  rw [compX_ok]
  simp only [mapM'_cons_ok]
  constructor
  · rintro ⟨_, ⟨d, ds, hx, hds, rfl⟩, hdis, hD⟩
    obtain ⟨h1, h2⟩ := List.pairwise_cons.1 hdis
    obtain ⟨D2, _, hD2⟩ := mergeDicts_ok h2
    refine ⟨d, D2, hx, compX_ok.2 ⟨ds, hds, h2, hD2⟩, ?_, ?_⟩
    · intro k hk hk2
      simp only [Dict.keys, hD2, List.map_flatMap, List.mem_flatMap] at hk2
      obtain ⟨e, he, hke⟩ := hk2
      exact h1 e he k hk hke
    · rw [hD, hD2]; rfl
  · rintro ⟨D1, D2, hx, hxs, hdis, hD⟩
    obtain ⟨ds, hds, h2, hD2⟩ := compX_ok.1 hxs
    refine ⟨D1 :: ds, ⟨D1, ds, hx, hds, rfl⟩, List.pairwise_cons.2 ⟨?_, h2⟩, ?_⟩
    · intro e he k hk hke
      apply hdis k hk
      simp only [Dict.keys, hD2, List.map_flatMap, List.mem_flatMap]
      exact ⟨e, he, hke⟩
    · rw [hD, hD2]; rfl

theorem compX_append {xs ys : List Extractor} {o : Obj} {D : Features} :
    compX (xs ++ ys) o = .ok D ↔ ∃ D1 D2, compX xs o = .ok D1 ∧ compX ys o = .ok D2 ∧
      Disj D1 D2 ∧ D.entries = D1.entries ++ D2.entries := by
  induction xs generalizing D with
  | nil =>
    simp only [List.nil_append, compX_nil, Except.ok.injEq, exists_eq_left', exists_and_left]
    constructor
    · intro h
      exact ⟨D, h, empty_disj D, by simp [Dict.empty]⟩
    · rintro ⟨D2, h, _, he⟩
      rw [h, Dict.ext (d := D2) (e := D) (by simpa [Dict.empty] using he.symm)]
  | cons x xs ih =>
    rw [List.cons_append, compX_cons]
    simp only [ih, compX_cons]
    constructor
    · rintro ⟨D1, D2, hx, ⟨D3, D4, h3, h4, hd34, he34⟩, hd, he⟩
      have hd13 : Disj D1 D3 := fun k hk hk3 => hd k hk ((keys_append he34 k).2 (Or.inl hk3))
      have hd14 : Disj D1 D4 := fun k hk hk4 => hd k hk ((keys_append he34 k).2 (Or.inr hk4))
      obtain ⟨E, hE⟩ := exists_append hd13
      refine ⟨E, D4, ⟨D1, D3, hx, h3, hd13, hE⟩, h4, ?_, ?_⟩
      · intro k hk
        rcases (keys_append hE k).1 hk with h | h
        · exact hd14 k h
        · exact hd34 k h
      · rw [he, he34, hE, List.append_assoc]
    · rintro ⟨E, D4, ⟨D1, D3, hx, h3, hd13, hE⟩, h4, hdE, he⟩
      have hd34 : Disj D3 D4 := fun k hk => hdE k ((keys_append hE k).2 (Or.inr hk))
      obtain ⟨F, hF⟩ := exists_append hd34
      refine ⟨D1, F, hx, ⟨D3, D4, h3, h4, hd34, hF⟩, ?_, ?_⟩
      · intro k hk hkF
        rcases (keys_append hF k).1 hkF with h | h
        · exact hd13 k hk h
        · exact hdE k ((keys_append hE k).2 (Or.inl hk)) h
      · rw [he, hE, hF, List.append_assoc]

/-! ### refinement -/

namespace Extractor.Refines

theorem refl (s : Extractor) : Refines s s := fun _ D h => ⟨D, h, SameDict.refl D⟩

theorem trans {s t u : Extractor} (h1 : Refines s t) (h2 : Refines t u) : Refines s u := by
  intro o D h
  obtain ⟨D', h', e⟩ := h1 o D h
  obtain ⟨D'', h'', e'⟩ := h2 o D' h'
  exact ⟨D'', h'', e.trans e'⟩

end Extractor.Refines

open Extractor

theorem compX_mono {xs ys : List Extractor} (h : List.Forall₂ Refines xs ys) :
    Refines (compX xs) (compX ys) := by
  induction h with
  | nil => exact Refines.refl _
  | cons hx _ ih =>
    intro o D hD
    obtain ⟨D1, D2, h1, h2, hd, he⟩ := compX_cons.1 hD
    obtain ⟨E1, hE1, s1⟩ := hx o D1 h1
    obtain ⟨E2, hE2, s2⟩ := ih o D2 h2
    have hd' := Disj.congr hd s1 s2
    obtain ⟨E, hE⟩ := exists_append hd'
    exact ⟨E, compX_cons.2 ⟨E1, E2, hE1, hE2, hd', hE⟩, sameDict_append he hE s1 s2⟩

theorem compX_append_mono {xs ys xs' ys' : List Extractor} (h1 : Refines (compX xs) (compX xs'))
    (h2 : Refines (compX ys) (compX ys')) : Refines (compX (xs ++ ys)) (compX (xs' ++ ys')) := by
  intro o D hD
  obtain ⟨D1, D2, hD1, hD2, hd, he⟩ := compX_append.1 hD
  obtain ⟨E1, hE1, s1⟩ := h1 o D1 hD1
  obtain ⟨E2, hE2, s2⟩ := h2 o D2 hD2
  have hd' := Disj.congr hd s1 s2
  obtain ⟨E, hE⟩ := exists_append hd'
  exact ⟨E, compX_append.2 ⟨E1, E2, hE1, hE2, hd', hE⟩, sameDict_append he hE s1 s2⟩

theorem compX_perm {xs ys : List Extractor} (h : xs.Perm ys) : Refines (compX xs) (compX ys) := by
  induction h with
  | nil => exact Refines.refl _
  | cons x _ ih => exact compX_append_mono (xs := [x]) (xs' := [x]) (Refines.refl _) ih
  | trans _ _ h1 h2 => exact h1.trans h2
  | swap x y l =>
    refine compX_append_mono (xs := [y, x]) (xs' := [x, y]) ?_ (Refines.refl _)
    intro o D hD
    obtain ⟨D1, D2, h1, h2, hd, he⟩ := compX_cons.1 hD
    obtain ⟨D3, D4, h3, h4, hd', he'⟩ := compX_cons.1 h2
    rw [compX_nil] at h4
    injection h4 with h4
    subst h4
    have e3 : D2 = D3 := Dict.ext (by simpa [Dict.empty] using he')
    subst e3
    have hd2 : Disj D2 D1 := fun k hk hk' => hd k hk' hk
    obtain ⟨E, hE⟩ := exists_append hd2
    have hone : ∀ z d, z o = .ok d → compX [z] o = .ok d := fun z d hz =>
      compX_cons.2 ⟨d, Dict.empty, hz, compX_nil o, disj_empty d,
        by simp [Dict.empty]⟩
    refine ⟨E, compX_cons.2 ⟨D2, D1, h3, hone _ _ h1, hd2, hE⟩, ?_⟩
    intro k
    rw [get?_append he, get?_append hE]
    cases e1 : D1.get? k with
    | none => cases D2.get? k <;> simp
    | some v =>
      have : D2.get? k = none := Dict.get?_none.2 (hd k (by
        rw [← Dict.get?_isSome, e1]; rfl))
      simp [this]

theorem compX_one (x : Extractor) (o : Obj) : compX [x] o = x o := by
  cases h : x o with
  | error e => simp [compX, mapM', h]
  | ok d =>
    exact compX_cons.2 ⟨d, Dict.empty, h, compX_nil o, disj_empty d,
      by simp [Dict.empty]⟩

theorem compBuild_eq {xs : List Extractor} (h : xs ≠ []) (o : Obj) : compBuild xs o = compX xs o := by
  match xs, h with
  | [x], _ => exact (compX_one x o).symm
  | _ :: _ :: _, _ => rfl

/-! ### functions applied to all values -/

/-- Apply a function to all feature values. -/
def valX (f : Feat → Res Feat) (x : Extractor) : Extractor := fun o =>
  match x o with
  | .error e => .error e
  | .ok d =>
    match mapValues f d with
    | .error e => .error e
    | .ok l => .ok (Dict.ofList l)

theorem padX_eq (x : Extractor) : padX x = valX padValue x := rfl
theorem sparseX_eq (sp : Feat → Res Feat) (x : Extractor) : sparseX sp x = valX sp x := rfl

theorem mapValues_forall2 {f : Feat → Res Feat} {d : Features} {l : List (Str × Feat)} :
    mapValues f d = .ok l ↔
      List.Forall₂ (fun p q => p.1 = q.1 ∧ f p.2 = .ok q.2) d.entries l := by
  rw [mapValues, mapM'_ok_iff]
  refine iff_of_eq (congrArg (fun r => List.Forall₂ r d.entries l) ?_)
  funext p q
  cases h : f p.2 with
  | error e => simp
  | ok v =>
    obtain ⟨q1, q2⟩ := q
    simp

theorem forall2_keys {f : Feat → Res Feat} {l m : List (Str × Feat)}
    (h : List.Forall₂ (fun p q => p.1 = q.1 ∧ f p.2 = .ok q.2) l m) :
    m.map Prod.fst = l.map Prod.fst := by
  induction h with
  | nil => rfl
  | cons h _ ih => simp [h.1, ih]

theorem forall2_get {f : Feat → Res Feat} {l m : List (Str × Feat)}
    (h : List.Forall₂ (fun p q => p.1 = q.1 ∧ f p.2 = .ok q.2) l m) (k : Str) :
    (assocGet k l = none ∧ assocGet k m = none) ∨
    ∃ v w, assocGet k l = some v ∧ assocGet k m = some w ∧ f v = .ok w := by
  induction h with
  | nil => left; simp [assocGet]
  | @cons p q _ _ h _ ih =>
    simp only [assocGet]
    by_cases hk : p.1 = k
    · right
      exact ⟨p.2, q.2, by simp [hk], by simp [← h.1, hk], h.2⟩
    · have hq : ¬ q.1 = k := by rw [← h.1]; exact hk
      rw [if_neg hk, if_neg hq]
      exact ih

theorem valX_ok {f : Feat → Res Feat} {x : Extractor} {o : Obj} {D : Features} :
    valX f x o = .ok D ↔ ∃ d, x o = .ok d ∧
      List.Forall₂ (fun p q => p.1 = q.1 ∧ f p.2 = .ok q.2) d.entries D.entries := by
  simp only [valX]
  cases x o with
  | error e => simp
  | ok d =>
    simp only [Except.ok.injEq, exists_eq_left']
    cases h : mapValues f d with
    | error e =>
      simp only [reduceCtorEq, false_iff]
      intro h'
      rw [← mapValues_forall2, h] at h'
      simp at h'
    | ok l =>
      have hl := mapValues_forall2.1 h
      have hk := forall2_keys hl
      have he : (Dict.ofList l).entries = l := Dict.ofList_entries l (by rw [hk]; exact d.nodup)
      simp only [Except.ok.injEq]
      constructor
      · rintro rfl; rw [he]; exact hl
      · intro h'
        apply Dict.ext
        rw [he]
        have := mapValues_forall2.2 h'
        rw [h] at this
        simpa using this

theorem valX_mono (f : Feat → Res Feat) {s t : Extractor} (h : Refines s t) :
    Refines (valX f s) (valX f t) := by
  intro o D hD
  obtain ⟨d, hd, hf⟩ := valX_ok.1 hD
  obtain ⟨e, he, hs⟩ := h o d hd
  have hok : ∀ p ∈ e.entries, ∃ w, f p.2 = .ok w := by
    intro p hp
    have h1 : e.get? p.1 = some p.2 := Dict.get?_mem.2 hp
    rw [← hs p.1] at h1
    rcases forall2_get hf p.1 with ⟨h2, _⟩ | ⟨v, w, h2, h3, h4⟩
    · rw [show d.get? p.1 = assocGet p.1 d.entries from rfl, h2] at h1; simp at h1
    · rw [show d.get? p.1 = assocGet p.1 d.entries from rfl, h2] at h1
      injection h1 with h1
      exact ⟨w, by rw [← h1]; exact h4⟩
  obtain ⟨l, hl⟩ : ∃ l, List.Forall₂ (fun p q : Str × Feat => p.1 = q.1 ∧ f p.2 = .ok q.2)
      e.entries l := by
    clear he hs
    revert hok
    generalize e.entries = m
    intro hok
    induction m with
    | nil => exact ⟨[], .nil⟩
    | cons p m ih =>
      obtain ⟨w, hw⟩ := hok p (by simp)
      obtain ⟨l, hl⟩ := ih (fun q hq => hok q (List.mem_cons_of_mem _ hq))
      exact ⟨(p.1, w) :: l, .cons ⟨rfl, hw⟩ hl⟩
  have hk := forall2_keys hl
  have hent : (Dict.ofList l).entries = l := Dict.ofList_entries l (by rw [hk]; exact e.nodup)
  refine ⟨Dict.ofList l, valX_ok.2 ⟨e, he, by rw [hent]; exact hl⟩, ?_⟩
  intro k
  have h1 := forall2_get hf k
  have h2 := forall2_get hl k
  have h3 := hs k
  have e1 : D.get? k = assocGet k D.entries := rfl
  have e2 : (Dict.ofList l).get? k = assocGet k l := by
    rw [show (Dict.ofList l).get? k = assocGet k (Dict.ofList l).entries from rfl, hent]
  have e3 : d.get? k = assocGet k d.entries := rfl
  have e4 : e.get? k = assocGet k e.entries := rfl
  rw [e3, e4] at h3
  rw [e1, e2]
  rcases h1 with ⟨a1, a2⟩ | ⟨v, w, a1, a2, a3⟩
  · rcases h2 with ⟨b1, b2⟩ | ⟨v', w', b1, b2, b3⟩
    · rw [a2, b2]
    · rw [a1, b1] at h3; simp at h3
  · rcases h2 with ⟨b1, b2⟩ | ⟨v', w', b1, b2, b3⟩
    · rw [a1, b1] at h3; simp at h3
    · rw [a1, b1] at h3
      injection h3 with h3
      subst h3
      rw [a3] at b3
      injection b3 with b3
      rw [a2, b2, b3]

theorem valX_comp (f : Feat → Res Feat) (xs : List Extractor) :
    Refines (compX (xs.map (valX f))) (valX f (compX xs)) := by
  suffices H : ∀ o D, compX (xs.map (valX f)) o = .ok D → valX f (compX xs) o = .ok D from
    fun o D h => ⟨D, H o D h, SameDict.refl D⟩
  induction xs with
  | nil =>
    intro o D h
    rw [List.map_nil, compX_nil] at h
    injection h with h
    subst h
    exact valX_ok.2 ⟨Dict.empty, compX_nil o, .nil⟩
  | cons x xs ih =>
    intro o D h
    rw [List.map_cons] at h
    obtain ⟨D1, D2, h1, h2, hd, he⟩ := compX_cons.1 h
    obtain ⟨d1, hd1, hf1⟩ := valX_ok.1 h1
    obtain ⟨d2, hd2, hf2⟩ := valX_ok.1 (ih o D2 h2)
    have hdis : Disj d1 d2 := by
      intro k hk hk2
      refine hd k ?_ ?_
      · show k ∈ D1.entries.map Prod.fst
        rw [forall2_keys hf1]; exact hk
      · show k ∈ D2.entries.map Prod.fst
        rw [forall2_keys hf2]; exact hk2
    obtain ⟨e, hE⟩ := exists_append hdis
    refine valX_ok.2 ⟨e, compX_cons.2 ⟨d1, d2, hd1, hd2, hdis, hE⟩, ?_⟩
    rw [hE, he]
    exact List.rel_append hf1 hf2

/-! ### sequences -/

theorem listFeatures_get (c : Dict Str (List Feat)) (k : Str) :
    (listFeatures c).get? k = (c.get? k).map Feat.list := by
  unfold listFeatures
  rw [Dict.get?_ofList]
  · unfold Dict.get?
    generalize c.entries = l
    induction l with
    | nil => rfl
    | cons p l ih =>
      simp only [List.map_cons, assocGet]
      split
      · rfl
      · exact ih
  · rw [List.map_map]
    exact c.nodup

theorem iterX_ok {x : Extractor} {o : Obj} {D : Features} :
    iterX x o = .ok D ↔ ∃ ds, mapM' x o.items = .ok ds ∧ D = listFeatures (collect ds) := by
  simp only [iterX]
  cases mapM' x o.items with
  | error e => simp
  | ok ds => simp [eq_comm]

theorem iterX_get (ds : List Features) (k : Str) :
    (listFeatures (collect ds)).get? k =
      if ∃ d ∈ ds, k ∈ d.keys then some (Feat.list (ds.filterMap (fun d => d.get? k))) else none := by
  rw [listFeatures_get, get?_collect]
  split <;> simp

theorem iterX_keys (ds : List Features) (k : Str) :
    k ∈ (listFeatures (collect ds)).keys ↔ ∃ d ∈ ds, k ∈ d.keys := by
  rw [← Dict.get?_isSome, iterX_get]
  split <;> simp_all

theorem filterMap_same {ds es : List Features} (h : List.Forall₂ SameDict ds es) (k : Str) :
    ds.filterMap (fun d => d.get? k) = es.filterMap (fun d => d.get? k) ∧
    ((∃ d ∈ ds, k ∈ d.keys) ↔ ∃ d ∈ es, k ∈ d.keys) := by
  induction h with
  | nil => simp
  | cons h _ ih =>
    refine ⟨?_, ?_⟩
    · simp only [List.filterMap_cons, h k, ih.1]
    · simp only [List.mem_cons, exists_eq_or_imp, ih.2, h.keys k]

theorem iterX_mono {s t : Extractor} (h : Refines s t) : Refines (iterX s) (iterX t) := by
  intro o D hD
  obtain ⟨ds, hds, rfl⟩ := iterX_ok.1 hD
  have hes : ∀ l : List Obj, ∀ ds, mapM' s l = .ok ds →
      ∃ es, mapM' t l = .ok es ∧ List.Forall₂ SameDict ds es := by
    intro l
    induction l with
    | nil => intro ds h; simp only [mapM', Except.ok.injEq] at h; subst h; exact ⟨[], rfl, .nil⟩
    | cons a l ih =>
      intro ds hd
      obtain ⟨b, bs, h1, h2, rfl⟩ := mapM'_cons_ok.1 hd
      obtain ⟨e, he, hs⟩ := h a b h1
      obtain ⟨es, hes, hss⟩ := ih bs h2
      exact ⟨e :: es, mapM'_cons_ok.2 ⟨e, es, he, hes, rfl⟩, .cons hs hss⟩
  obtain ⟨es, hes, hss⟩ := hes _ _ hds
  refine ⟨listFeatures (collect es), iterX_ok.2 ⟨es, hes, rfl⟩, ?_⟩
  intro k
  rw [iterX_get, iterX_get]
  obtain ⟨h1, h2⟩ := filterMap_same hss k
  simp only [h1, h2]

theorem forall2_appended {ds es fs : List Features}
    (h : List.Forall₂ (fun (p : Features × Features) f => f.entries = p.1.entries ++ p.2.entries)
      (ds.zip es) fs) (hlen : ds.length = es.length) (k : Str)
    (hk : (∀ d ∈ ds, k ∉ d.keys) ∨ (∀ e ∈ es, k ∉ e.keys)) :
    fs.filterMap (fun d => d.get? k) =
      ds.filterMap (fun d => d.get? k) ++ es.filterMap (fun d => d.get? k) := by
  induction ds generalizing es fs with
  | nil =>
    cases es with
    | nil => simp at h; subst h; rfl
    | cons _ _ => simp at hlen
  | cons d ds ih =>
    cases es with
    | nil => simp at hlen
    | cons e es =>
      rw [List.zip_cons_cons] at h
      cases h with
      | @cons _ f _ fs h1 h2 =>
        have := ih h2 (by simpa using hlen) (by
          rcases hk with hk | hk
          · left; exact fun x hx => hk x (List.mem_cons_of_mem _ hx)
          · right; exact fun x hx => hk x (List.mem_cons_of_mem _ hx))
        have hg := get?_append h1 k
        rcases hk with hk | hk
        · have h0 : d.get? k = none := Dict.get?_none.2 (hk d (by simp))
          have hall : ds.filterMap (fun d => d.get? k) = [] := by
            rw [List.filterMap_eq_nil_iff]
            intro x hx
            exact Dict.get?_none.2 (hk x (List.mem_cons_of_mem _ hx))
          rw [hall, List.nil_append] at this
          simp only [List.filterMap_cons, hg, h0, Option.none_or, this, hall, List.nil_append]
        · have h0 : e.get? k = none := Dict.get?_none.2 (hk e (by simp))
          have hall : es.filterMap (fun d => d.get? k) = [] := by
            rw [List.filterMap_eq_nil_iff]
            intro x hx
            exact Dict.get?_none.2 (hk x (List.mem_cons_of_mem _ hx))
          rw [hall, List.append_nil] at this
          simp only [List.filterMap_cons, hg, h0, Option.or_none, this, hall, List.append_nil]

theorem forall2_appended_keys {ds es fs : List Features}
    (h : List.Forall₂ (fun (p : Features × Features) f => f.entries = p.1.entries ++ p.2.entries)
      (ds.zip es) fs) (hlen : ds.length = es.length) (k : Str) :
    (∃ f ∈ fs, k ∈ f.keys) ↔ (∃ d ∈ ds, k ∈ d.keys) ∨ ∃ e ∈ es, k ∈ e.keys := by
  induction ds generalizing es fs with
  | nil =>
    cases es with
    | nil => simp at h; subst h; simp
    | cons _ _ => simp at hlen
  | cons d ds ih =>
    cases es with
    | nil => simp at hlen
    | cons e es =>
      rw [List.zip_cons_cons] at h
      cases h with
      | @cons _ f _ fs h1 h2 =>
        have := ih h2 (by simpa using hlen)
        simp only [List.mem_cons, exists_eq_or_imp, this, keys_append h1]
        exact or_or_or_comm

theorem iterX_comp (xs : List Extractor) :
    Refines (compX (xs.map iterX)) (iterX (compX xs)) := by
  induction xs with
  | nil =>
    intro o D h
    rw [List.map_nil, compX_nil] at h
    injection h with h
    subst h
    have : mapM' (compX []) o.items = .ok (o.items.map (fun _ => Dict.empty)) :=
      mapM'_ok_of_forall (fun a _ => compX_nil a)
    refine ⟨_, iterX_ok.2 ⟨_, this, rfl⟩, ?_⟩
    intro k
    rw [iterX_get, if_neg]
    · rfl
    · rintro ⟨d, hd, hk⟩
      obtain ⟨_, _, rfl⟩ := List.mem_map.1 hd
      simp [Dict.keys, Dict.empty] at hk
  | cons x xs ih =>
    intro o D h
    rw [List.map_cons] at h
    obtain ⟨D1, D2, h1, h2, hd, he⟩ := compX_cons.1 h
    obtain ⟨ds, hds, rfl⟩ := iterX_ok.1 h1
    obtain ⟨D2', h2', hs⟩ := ih o D2 h2
    obtain ⟨es, hes, rfl⟩ := iterX_ok.1 h2'
    have hdk : ∀ k, (∀ d ∈ ds, k ∉ d.keys) ∨ (∀ e ∈ es, k ∉ e.keys) := by
      intro k
      by_contra hno
      simp only [not_or, not_forall, Classical.not_not] at hno
      obtain ⟨⟨d, hdm, hkd⟩, ⟨e, hem, hke⟩⟩ := hno
      exact hd k ((iterX_keys ds k).2 ⟨d, hdm, hkd⟩)
        ((hs.keys k).2 ((iterX_keys es k).2 ⟨e, hem, hke⟩))
    have hfs : ∀ (l : List Obj) (ds es : List Features), mapM' x l = .ok ds →
        mapM' (compX xs) l = .ok es →
        (∀ k, (∀ d ∈ ds, k ∉ d.keys) ∨ (∀ e ∈ es, k ∉ e.keys)) →
        ∃ fs, mapM' (compX (x :: xs)) l = .ok fs ∧ ds.length = es.length ∧
          List.Forall₂ (fun (p : Features × Features) f => f.entries = p.1.entries ++ p.2.entries)
            (ds.zip es) fs := by
      intro l
      induction l with
      | nil =>
        intro ds es hds hes _
        simp only [mapM', Except.ok.injEq] at hds hes
        subst hds; subst hes
        exact ⟨[], rfl, rfl, .nil⟩
      | cons a l ihl =>
        intro ds es hds hes hk
        obtain ⟨d, ds', a1, a2, rfl⟩ := mapM'_cons_ok.1 hds
        obtain ⟨e, es', b1, b2, rfl⟩ := mapM'_cons_ok.1 hes
        obtain ⟨fs, hfs, hlen, hf⟩ := ihl ds' es' a2 b2 (by
          intro k
          rcases hk k with h | h
          · left; exact fun y hy => h y (List.mem_cons_of_mem _ hy)
          · right; exact fun y hy => h y (List.mem_cons_of_mem _ hy))
        have hdis : Disj d e := by
          intro k h1 h2
          rcases hk k with h | h
          · exact h d (by simp) h1
          · exact h e (by simp) h2
        obtain ⟨f, hfe⟩ := exists_append hdis
        exact ⟨f :: fs, mapM'_cons_ok.2 ⟨f, fs, compX_cons.2 ⟨d, e, a1, b1, hdis, hfe⟩, hfs, rfl⟩,
          by simp [hlen], .cons hfe hf⟩
    obtain ⟨fs, hfs, hlen, hf⟩ := hfs _ _ _ hds hes hdk
    refine ⟨_, iterX_ok.2 ⟨fs, hfs, rfl⟩, ?_⟩
    intro k
    rw [get?_append he, hs k, iterX_get, iterX_get, iterX_get]
    rw [forall2_appended hf hlen k (hdk k)]
    simp only [forall2_appended_keys hf hlen k]
    rcases hdk k with h | h
    · have hno : ¬ ∃ d ∈ ds, k ∈ d.keys := by rintro ⟨d, hd, hk⟩; exact h d hd hk
      have hall : ds.filterMap (fun d => d.get? k) = [] := by
        rw [List.filterMap_eq_nil_iff]
        intro x hx
        exact Dict.get?_none.2 (h x hx)
      simp only [hno, if_false, Option.none_or, false_or, hall, List.nil_append]
    · have hno : ¬ ∃ d ∈ es, k ∈ d.keys := by rintro ⟨d, hd, hk⟩; exact h d hd hk
      have hall : es.filterMap (fun d => d.get? k) = [] := by
        rw [List.filterMap_eq_nil_iff]
        intro x hx
        exact Dict.get?_none.2 (h x hx)
      simp only [hno, if_false, Option.or_none, or_false, hall, List.append_nil]

/-! ### merging -/

section
variable (lf : Nat → Nat → Extractor) (sp : Feat → Res Feat)

theorem extractorL_eq (l : List Builder) :
    Builder.extractorL lf sp l = l.map (Builder.extractor lf sp) := by
  induction l with
  | nil => rfl
  | cons b l ih => simp [Builder.extractorL, ih]

theorem wrapResult_extractor {l : List Builder} (h : l ≠ []) (o : Obj) :
    (wrapResult l).extractor lf sp o = compX (l.map (Builder.extractor lf sp)) o := by
  match l, h with
  | [b], _ => exact (compX_one _ o).symm
  | a :: b :: l, _ =>
    simp only [wrapResult, Builder.extractor]
    rw [extractorL_eq, compBuild_eq (by simp)]

theorem refines_of_eq {s t : Extractor} (h : ∀ o, s o = t o) : Refines s t :=
  fun o D hD => ⟨D, by rw [← h o]; exact hD, SameDict.refl D⟩

theorem group_wrapped (w : Extractor → Extractor)
    (hcomp : ∀ xs, Refines (compX (xs.map w)) (w (compX xs)))
    (vs : List Builder) (kind : Builder → Prop)
    (hin : ∀ b, kind b → ∃ c, b.inner = [c] ∧ b.extractor lf sp = w (c.extractor lf sp))
    (hk : ∀ b ∈ vs, kind b) :
    Refines (compX (vs.map (Builder.extractor lf sp)))
      (w (compX ((vs.flatMap Builder.inner).map (Builder.extractor lf sp)))) := by
  have : vs.map (Builder.extractor lf sp) =
      ((vs.flatMap Builder.inner).map (Builder.extractor lf sp)).map w := by
    induction vs with
    | nil => rfl
    | cons b vs ih =>
      obtain ⟨c, h1, h2⟩ := hin b (hk b (by simp))
      simp only [List.map_cons, List.flatMap_cons, h1, List.cons_append, List.nil_append]
      rw [h2, ih (fun x hx => hk x (List.mem_cons_of_mem _ hx))]
  rw [this]
  exact hcomp _

theorem group_comp (vs : List Builder) (hk : ∀ b ∈ vs, b.kind = .comp) :
    Refines (compX (vs.map (Builder.extractor lf sp)))
      (compX ((vs.flatMap Builder.inner).map (Builder.extractor lf sp))) := by
  induction vs with
  | nil => exact Refines.refl _
  | cons b vs ih =>
    rw [List.map_cons, List.flatMap_cons, List.map_append]
    refine compX_append_mono (xs := [_]) ?_ (ih (fun x hx => hk x (List.mem_cons_of_mem _ hx)))
    have hb := hk b (by simp)
    cases b <;> simp [Builder.kind] at hb
    rename_i l
    intro o D hD
    rw [compX_one] at hD
    simp only [Builder.extractor, extractorL_eq] at hD
    by_cases hl : l.map (Builder.extractor lf sp) = []
    · rw [hl] at hD
      simp [compBuild] at hD
    · rw [compBuild_eq hl] at hD
      exact ⟨D, hD, SameDict.refl D⟩

theorem group_empty (vs : List Builder) (hk : ∀ b ∈ vs, b.kind = .empty) (o : Obj) :
    compX (vs.map (Builder.extractor lf sp)) o = .ok Dict.empty := by
  induction vs with
  | nil => rfl
  | cons b vs ih =>
    have hb := hk b (by simp)
    cases b <;> simp [Builder.kind] at hb
    rw [List.map_cons]
    exact compX_cons.2 ⟨Dict.empty, Dict.empty, rfl,
      ih (fun x hx => hk x (List.mem_cons_of_mem _ hx)), disj_empty _, by simp [Dict.empty]⟩

theorem mergeGroup_refines {rec : List Builder → Res Builder}
    (hrec : ∀ bs b, rec bs = .ok b →
      Refines (compX (bs.map (Builder.extractor lf sp))) (b.extractor lf sp))
    (skip : Bool) (g : Kind × List Builder) (hk : ∀ b ∈ g.2, b.kind = g.1) (parts : List Builder)
    (h : mergeGroup rec skip g = .ok parts) :
    Refines (compX (g.2.map (Builder.extractor lf sp)))
      (compX (parts.map (Builder.extractor lf sp))) := by
  obtain ⟨k, vs⟩ := g
  simp only at hk ⊢
  simp only [mergeGroup] at h
  split at h
  · rename_i hs
    simp only [Bool.and_eq_true, decide_eq_true_eq] at hs
    injection h with h
    subst h
    apply refines_of_eq
    intro o
    rw [group_empty lf sp vs (fun b hb => by rw [hk b hb, hs.2])]
    rfl
  · split at h
    · injection h with h
      subst h
      exact Refines.refl _
    · have one : ∀ b : Builder, Refines (b.extractor lf sp)
          (compX ([b].map (Builder.extractor lf sp))) :=
        fun b => refines_of_eq (fun o => (compX_one _ o).symm)
      cases k with
      | padding =>
        simp only [mergeSame] at h
        cases hr : rec (vs.flatMap Builder.inner) with
        | error e => simp [hr, Except.map] at h
        | ok b =>
          simp only [hr, Except.map, Except.ok.injEq] at h
          subst h
          refine (group_wrapped lf sp (valX padValue) (valX_comp _) vs
            (fun b => b.kind = .padding) ?_ hk).trans
            ((valX_mono padValue (hrec _ _ hr)).trans (one (.padding b)))
          intro c hc
          cases c <;> simp [Builder.kind] at hc
          exact ⟨_, rfl, rfl⟩
      | sparse =>
        simp only [mergeSame] at h
        cases hr : rec (vs.flatMap Builder.inner) with
        | error e => simp [hr, Except.map] at h
        | ok b =>
          simp only [hr, Except.map, Except.ok.injEq] at h
          subst h
          refine (group_wrapped lf sp (valX sp) (valX_comp _) vs
            (fun b => b.kind = .sparse) ?_ hk).trans
            ((valX_mono sp (hrec _ _ hr)).trans (one (.sparse b)))
          intro c hc
          cases c <;> simp [Builder.kind] at hc
          exact ⟨_, rfl, rfl⟩
      | iter =>
        simp only [mergeSame] at h
        cases hr : rec (vs.flatMap Builder.inner) with
        | error e => simp [hr, Except.map] at h
        | ok b =>
          simp only [hr, Except.map, Except.ok.injEq] at h
          subst h
          refine (group_wrapped lf sp iterX iterX_comp vs
            (fun b => b.kind = .iter) ?_ hk).trans
            ((iterX_mono (hrec _ _ hr)).trans (one (.iter b)))
          intro c hc
          cases c <;> simp [Builder.kind] at hc
          exact ⟨_, rfl, rfl⟩
      | comp =>
        simp only [mergeSame] at h
        cases hr : rec (vs.flatMap Builder.inner) with
        | error e => simp [hr, Except.map] at h
        | ok b =>
          simp only [hr, Except.map, Except.ok.injEq] at h
          subst h
          exact (group_comp lf sp vs hk).trans ((hrec _ _ hr).trans (one b))
      | empty =>
        simp only [mergeSame, Except.ok.injEq] at h
        subst h
        apply refines_of_eq
        intro o
        rw [group_empty lf sp vs hk,
          group_empty lf sp (vs.take 1) (fun b hb => hk b (List.mem_of_mem_take hb))]
      | leaf ty =>
        simp only [mergeSame, Except.ok.injEq] at h
        subst h
        exact Refines.refl _

theorem groups_refine {rec : List Builder → Res Builder} {skip : Bool}
    (hrec : ∀ bs b, rec bs = .ok b →
      Refines (compX (bs.map (Builder.extractor lf sp))) (b.extractor lf sp))
    (g : List (Kind × List Builder)) (hk : ∀ p ∈ g, ∀ b ∈ p.2, b.kind = p.1)
    (parts : List (List Builder)) (h : mapM' (mergeGroup rec skip) g = .ok parts) :
    Refines (compX ((g.flatMap Prod.snd).map (Builder.extractor lf sp)))
      (compX (parts.flatten.map (Builder.extractor lf sp))) := by
  induction g generalizing parts with
  | nil =>
    simp only [mapM', Except.ok.injEq] at h
    subst h
    exact Refines.refl _
  | cons p g ih =>
    obtain ⟨a, as, h1, h2, rfl⟩ := mapM'_cons_ok.1 h
    rw [List.flatMap_cons, List.map_append, List.flatten_cons, List.map_append]
    exact compX_append_mono (mergeGroup_refines lf sp hrec skip p (hk p List.mem_cons_self) a h1)
      (ih (fun q hq => hk q (List.mem_cons_of_mem _ hq)) as h2)

theorem mergeGroup_ne {rec : List Builder → Res Builder} {skip : Bool}
    {g : Kind × List Builder} (hne : g.2 ≠ []) (h : g.1 ≠ .empty ∨ skip = false)
    {parts : List Builder} (hp : mergeGroup rec skip g = .ok parts) : parts ≠ [] := by
  obtain ⟨k, vs⟩ := g
  simp only at hne h
  simp only [mergeGroup] at hp
  split at hp
  · rename_i hs
    simp only [Bool.and_eq_true, decide_eq_true_eq] at hs
    rcases h with h | h
    · exact absurd hs.2 h
    · simp [h] at hs
  · split at hp
    · injection hp with hp; subst hp; exact hne
    · cases k <;> simp only [mergeSame, Except.ok.injEq] at hp
      case empty => subst hp; simp [hne]
      case leaf => subst hp; exact hne
      all_goals
        cases hr : rec (vs.flatMap Builder.inner) with
        | error e => simp [hr, Except.map] at hp
        | ok b =>
          simp only [hr, Except.map, Except.ok.injEq] at hp
          subst hp
          simp

theorem groups_ne {rec : List Builder → Res Builder} {skip : Bool}
    {g : List (Kind × List Builder)} (hne : ∀ p ∈ g, p.2 ≠ [])
    (h : ∃ p ∈ g, p.1 ≠ .empty ∨ skip = false)
    {parts : List (List Builder)} (hp : mapM' (mergeGroup rec skip) g = .ok parts) :
    parts.flatten ≠ [] := by
  induction g generalizing parts with
  | nil => simp at h
  | cons p g ih =>
    obtain ⟨a, as, h1, h2, rfl⟩ := mapM'_cons_ok.1 hp
    rw [List.flatten_cons]
    intro he
    rw [List.append_eq_nil_iff] at he
    obtain ⟨q, hq, hh⟩ := h
    rcases List.mem_cons.1 hq with rfl | hq
    · exact mergeGroup_ne (hne q List.mem_cons_self) hh h1 he.1
    · exact ih (fun x hx => hne x (List.mem_cons_of_mem _ hx)) ⟨q, hq, hh⟩ h2 he.2

theorem mergeFuel_refines (n : Nat) (bs : List Builder) (b : Builder)
    (h : mergeFuel n bs = .ok b) :
    Refines (compX (bs.map (Builder.extractor lf sp))) (b.extractor lf sp) := by
  induction n generalizing bs b with
  | zero => simp [mergeFuel] at h
  | succ n ih =>
    simp only [mergeFuel] at h
    split at h
    · simp at h
    · rename_i hne
      split at h
      · simp at h
      · rename_i parts hp
        injection h with h
        subst h
        have hg := groupByKind_grouped bs
        have hbs : bs ≠ [] := fun hb => hne ((groupByKind_isEmpty bs).2 hb)
        refine (compX_perm ((groupByKind_perm bs).symm.map _)).trans
          ((groups_refine lf sp ih _ hg.kinds parts hp).trans (refines_of_eq ?_))
        intro o
        exact (wrapResult_extractor lf sp (groups_ne hg.ne (exists_kept bs hbs) hp) o).symm

end

end Verif
