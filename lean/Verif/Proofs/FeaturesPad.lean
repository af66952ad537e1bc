import Verif.Spec.Features
import Verif.Proofs.PyLemmas

/-! # Padding -/

namespace Verif
namespace Feat

theorem at_list_cons (l : List Feat) (i : Nat) (p : List Nat) :
    (Feat.list l).at (i :: p) = (l[i]?).bind (fun x => x.at p) := by
  rw [Feat.at]
  cases l[i]? <;> rfl

theorem at_nil (f : Feat) : f.at [] = some f := by cases f <;> rfl

theorem at_leaf {f : Feat} (h : f.isList = false) (i : Nat) (p : List Nat) :
    f.at (i :: p) = none := by
  cases f <;> first | rfl | simp [isList] at h

theorem isList_iff {f : Feat} : f.isList = true ↔ f = .list f.items := by
  cases f <;> simp [isList, items]

theorem atDepth_zero {f x : Feat} : f.AtDepth 0 x ↔ x = f := by
  constructor
  · rintro ⟨p, hp, h⟩
    have : p = [] := List.length_eq_zero_iff.1 hp
    subst this
    rw [at_nil] at h
    exact (Option.some.inj h).symm
  · rintro rfl
    exact ⟨[], rfl, at_nil _⟩

theorem atDepth_succ {l : List Feat} {k : Nat} {x : Feat} :
    (Feat.list l).AtDepth (k + 1) x ↔ ∃ y ∈ l, y.AtDepth k x := by
  constructor
  · rintro ⟨p, hp, h⟩
    cases p with
    | nil => simp at hp
    | cons i p =>
      rw [at_list_cons] at h
      cases hi : l[i]? with
      | none => simp [hi] at h
      | some y =>
        simp only [hi, Option.bind_some] at h
        exact ⟨y, List.mem_of_getElem? hi, p, by simpa using hp, h⟩
  · rintro ⟨y, hy, p, hp, h⟩
    obtain ⟨i, hi⟩ := List.mem_iff_getElem?.1 hy
    exact ⟨i :: p, by simp [hp], by rw [at_list_cons, hi]; exact h⟩

theorem atDepth_flat {seq : List Feat} (hall : ∀ x ∈ seq, x.isList = true) {k : Nat} {x : Feat} :
    (Feat.list seq).AtDepth (k + 2) x ↔ (Feat.list (seq.flatMap items)).AtDepth (k + 1) x := by
  rw [atDepth_succ, atDepth_succ]
  constructor
  · rintro ⟨s, hs, h⟩
    rw [isList_iff.1 (hall s hs), atDepth_succ] at h
    obtain ⟨y, hy, h⟩ := h
    exact ⟨y, List.mem_flatMap.2 ⟨s, hs, hy⟩, h⟩
  · rintro ⟨y, hy, h⟩
    obtain ⟨s, hs, hy⟩ := List.mem_flatMap.1 hy
    refine ⟨s, hs, ?_⟩
    rw [isList_iff.1 (hall s hs), atDepth_succ]
    exact ⟨y, hy, h⟩

theorem uniform_flat {seq : List Feat} (hall : ∀ x ∈ seq, x.isList = true) :
    (Feat.list seq).Uniform ↔ (Feat.list (seq.flatMap items)).Uniform := by
  constructor
  · intro h k x y hx hy
    cases k with
    | zero => rw [atDepth_zero] at hx hy; rw [hx, hy]
    | succ k => exact h (k + 2) x y ((atDepth_flat hall).2 hx) ((atDepth_flat hall).2 hy)
  · intro h k x y hx hy
    match k with
    | 0 => rw [atDepth_zero] at hx hy; rw [hx, hy]
    | 1 =>
      rw [atDepth_succ] at hx hy
      obtain ⟨a, ha, hx⟩ := hx
      obtain ⟨b, hb, hy⟩ := hy
      rw [atDepth_zero] at hx hy
      rw [hx, hy, hall a ha, hall b hb]
    | k + 2 => exact h (k + 1) x y ((atDepth_flat hall).1 hx) ((atDepth_flat hall).1 hy)

theorem uniform_leaves {seq : List Feat} (hall : ∀ x ∈ seq, x.isList = false) :
    (Feat.list seq).Uniform := by
  intro k x y hx hy
  match k with
  | 0 => rw [atDepth_zero] at hx hy; rw [hx, hy]
  | k + 1 =>
    rw [atDepth_succ] at hx hy
    obtain ⟨a, ha, p, hp, hx⟩ := hx
    obtain ⟨b, hb, q, hq, hy⟩ := hy
    cases p with
    | cons i p => rw [at_leaf (hall a ha)] at hx; simp at hx
    | nil =>
      cases q with
      | cons i q => rw [at_leaf (hall b hb)] at hy; simp at hy
      | nil =>
        rw [at_nil] at hx hy
        rw [← Option.some.inj hx, ← Option.some.inj hy, hall a ha, hall b hb]

/-- The relation between a value and the padded value. -/
def PadRel (a b : Feat) : Prop := Keeps a b ∧ AddsPadding a b

def AllPad (f : Feat) : Prop := ∀ p y, f.at p = some y → y.isList = false → y = .int PADDING

theorem PadRel.refl (f : Feat) : PadRel f f := by
  refine ⟨fun p x h => ⟨x, h, fun _ => rfl, fun h => h⟩, ?_⟩
  intro p y h _ hn
  rw [h] at hn
  simp at hn

theorem padRel_list {l g : List Feat} (h : List.Forall₂ PadRel l g) {pad : Feat} (hp : AllPad pad)
    (k : Nat) : PadRel (.list l) (.list (g ++ List.replicate k pad)) := by
  have hlen := h.length_eq
  constructor
  · intro p x hx
    cases p with
    | nil =>
      rw [at_nil] at hx
      refine ⟨_, at_nil _, ?_, fun _ => rfl⟩
      intro hl
      rw [← Option.some.inj hx] at hl
      simp [isList] at hl
    | cons i p =>
      rw [at_list_cons] at hx
      cases hi : l[i]? with
      | none => simp [hi] at hx
      | some y =>
        simp only [hi, Option.bind_some] at hx
        have hil : i < l.length := (List.getElem?_eq_some_iff.1 hi).1
        obtain ⟨z, hz, hr⟩ : ∃ z, g[i]? = some z ∧ PadRel y z := by
          have hig : i < g.length := by omega
          refine ⟨g[i], List.getElem?_eq_getElem hig, ?_⟩
          have := h.get hil hig
          rw [List.getElem?_eq_some_iff] at hi
          obtain ⟨_, hi⟩ := hi
          simpa [hi] using this
        obtain ⟨w, hw, h1⟩ := hr.1 p x hx
        refine ⟨w, ?_, h1⟩
        rw [at_list_cons, List.getElem?_append_left (by omega), hz]
        exact hw
  · intro p y hy hyl hn
    cases p with
    | nil => rw [at_nil] at hn; simp at hn
    | cons i p =>
      rw [at_list_cons] at hy hn
      by_cases hig : i < g.length
      · rw [List.getElem?_append_left hig, List.getElem?_eq_getElem hig, Option.bind_some] at hy
        rw [List.getElem?_eq_getElem (by omega : i < l.length), Option.bind_some] at hn
        have := h.get (by omega : i < l.length) hig
        exact this.2 p y hy hyl hn
      · rw [List.getElem?_append_right (by omega)] at hy
        cases hr : (List.replicate k pad)[i - g.length]? with
        | none => simp [hr] at hy
        | some z =>
          have := List.mem_of_getElem? hr
          rw [List.mem_replicate] at this
          rw [hr, Option.bind_some, this.2] at hy
          exact hp p y hy hyl

theorem allPad_replicate {pad : Feat} (hp : AllPad pad) (k : Nat) :
    AllPad (.list (List.replicate k pad)) := by
  intro p y hy hyl
  cases p with
  | nil =>
    rw [at_nil] at hy
    rw [← Option.some.inj hy] at hyl
    simp [isList] at hyl
  | cons i p =>
    rw [at_list_cons] at hy
    cases hr : (List.replicate k pad)[i]? with
    | none => simp [hr] at hy
    | some z =>
      have := List.mem_of_getElem? hr
      rw [List.mem_replicate] at this
      rw [hr, Option.bind_some, this.2] at hy
      exact hp p y hy hyl

end Feat

theorem regroup_forall2 {seq flat : List Feat} {P : Feat → Feat → Prop}
    (h : List.Forall₂ P (seq.flatMap Feat.items) flat) :
    List.Forall₂ (fun x g => List.Forall₂ P x.items g) seq
      (regroup (seq.map (fun x => x.items.length)) flat) := by
  induction seq generalizing flat with
  | nil => simp [regroup]
  | cons x seq ih =>
    simp only [List.flatMap_cons] at h
    have h1 := List.forall₂_take x.items.length h
    have h2 := List.forall₂_drop x.items.length h
    simp only [List.map_cons, regroup]
    exact List.Forall₂.cons (by simpa using h1) (ih (by simpa using h2))

theorem foldl_max_ge (l : List Nat) (a : Nat) : a ≤ l.foldl max a := by
  induction l generalizing a with
  | nil => exact le_rfl
  | cons b l ih => exact le_trans (le_max_left a b) (ih _)

theorem le_foldl_max {l : List Nat} {n : Nat} (h : n ∈ l) (a : Nat) : n ≤ l.foldl max a := by
  induction l generalizing a with
  | nil => simp at h
  | cons b l ih =>
    rcases List.mem_cons.1 h with rfl | h
    · exact le_trans (le_max_right a n) (foldl_max_ge l _)
    · exact ih h _

theorem foldl_max_mem (l : List Nat) (a : Nat) : l.foldl max a = a ∨ l.foldl max a ∈ l := by
  induction l generalizing a with
  | nil => exact Or.inl rfl
  | cons b l ih =>
    simp only [List.foldl_cons]
    rcases ih (max a b) with h | h
    · rw [h]
      rcases max_choice a b with h | h
      · exact Or.inl h
      · rw [h]; right; exact List.mem_cons_self
    · right; exact List.mem_cons_of_mem _ h

theorem depthL_flat {seq : List Feat} {n : Nat} (h : Feat.depthL seq ≤ n + 1) :
    Feat.depthL (seq.flatMap Feat.items) ≤ n := by
  have key : ∀ l : List Feat, Feat.depthL l ≤ n ↔ ∀ x ∈ l, x.depth ≤ n := by
    intro l
    induction l with
    | nil => simp [Feat.depthL]
    | cons x l ih => simp [Feat.depthL, ih]
  have key1 : ∀ l : List Feat, Feat.depthL l ≤ n + 1 ↔ ∀ x ∈ l, x.depth ≤ n + 1 := by
    intro l
    induction l with
    | nil => simp [Feat.depthL]
    | cons x l ih => simp [Feat.depthL, ih]
  rw [key]
  intro y hy
  obtain ⟨s, hs, hy⟩ := List.mem_flatMap.1 hy
  have h1 := (key1 seq).1 h s hs
  cases s with
  | list l =>
    simp only [Feat.depth, Nat.add_le_add_iff_right] at h1
    exact (key l).1 h1 y hy
  | int _ => simp [Feat.items] at hy
  | bool _ => simp [Feat.items] at hy
  | other _ => simp [Feat.items] at hy

/-- Padding a sequence whose elements are uniform. -/
theorem padSequence_ok (n : Nat) (seq : List Feat) (hn : Feat.depthL seq ≤ n)
    (hu : (Feat.list seq).Uniform) :
    ∃ pad seq' shape, padSequence (n + 1) seq = .ok (pad, seq') ∧
      Feat.HasShape shape pad ∧ Feat.AllPad pad ∧ (∀ x ∈ seq', Feat.HasShape shape x) ∧
      List.Forall₂ Feat.PadRel seq seq' ∧
      (∀ k m, shape[k]? = some m → ∃ l, (Feat.list seq).AtDepth (k + 1) (.list l) ∧ l.length = m) := by
  induction n generalizing seq with
  | zero =>
    have hall : ∀ x ∈ seq, x.isList = false := by
      intro x hx
      have : ∀ l : List Feat, Feat.depthL l ≤ 0 → ∀ x ∈ l, x.isList = false := by
        intro l
        induction l with
        | nil => simp
        | cons y l ih =>
          intro h x hx
          simp only [Feat.depthL, Nat.le_zero, Nat.max_eq_zero_iff] at h
          rcases List.mem_cons.1 hx with rfl | hx
          · cases x <;> simp [Feat.isList, Feat.depth] at h ⊢
          · exact ih (by omega) x hx
      exact this seq hn x hx
    refine ⟨.int PADDING, seq, [], ?_, rfl, ?_, hall, ?_, by simp⟩
    · have : seq.all (fun x => !x.isList) = true := by
        rw [List.all_eq_true]; intro x hx; simp [hall x hx]
      simp [padSequence, this]
    · intro p y hy _
      cases p with
      | nil => exact (Option.some.inj hy).symm
      | cons i p => rw [Feat.at_leaf rfl] at hy; simp at hy
    · exact List.forall₂_same.2 (fun x _ => Feat.PadRel.refl x)
  | succ n ih =>
    by_cases h1 : seq.all (fun x => !x.isList) = true
    · have hall : ∀ x ∈ seq, x.isList = false := by
        intro x hx
        have := List.all_eq_true.1 h1 x hx
        simpa using this
      refine ⟨.int PADDING, seq, [], ?_, rfl, ?_, hall, ?_, by simp⟩
      · rw [padSequence, if_pos h1]
      · intro p y hy _
        cases p with
        | nil => exact (Option.some.inj hy).symm
        | cons i p => rw [Feat.at_leaf rfl] at hy; simp at hy
      · exact List.forall₂_same.2 (fun x _ => Feat.PadRel.refl x)
    · -- some element is a list, so all are
      obtain ⟨x0, hx0, hx0l⟩ : ∃ x ∈ seq, x.isList = true := by
        by_contra hno
        apply h1
        rw [List.all_eq_true]
        intro x hx
        by_contra h
        exact hno ⟨x, hx, by simpa using h⟩
      have hall : ∀ x ∈ seq, x.isList = true := by
        intro x hx
        rw [← hx0l]
        exact hu 1 x x0 (Feat.atDepth_succ.2 ⟨x, hx, Feat.atDepth_zero.2 rfl⟩)
          (Feat.atDepth_succ.2 ⟨x0, hx0, Feat.atDepth_zero.2 rfl⟩)
      obtain ⟨pad, flat, shape, hok, hs, hp, hs', hr, hmin⟩ :=
        ih (seq.flatMap Feat.items) (depthL_flat hn) ((Feat.uniform_flat hall).1 hu)
      have hre := regroup_forall2 hr
      refine ⟨.list (List.replicate (maxLen seq) pad),
        extendAll (maxLen seq) pad (regroup (seq.map (fun x => x.items.length)) flat),
        maxLen seq :: shape, ?_, ?_, ?_, ?_, ?_, ?_⟩
      · have h2 : seq.all Feat.isList = true := List.all_eq_true.2 hall
        rw [padSequence, if_neg h1]
        simp [h2, hok]
      · exact ⟨_, rfl, by simp, fun x hx => by rw [(List.mem_replicate.1 hx).2]; exact hs⟩
      · exact Feat.allPad_replicate hp _
      · intro x hx
        obtain ⟨g, hg, rfl⟩ := List.mem_map.1 hx
        obtain ⟨i, hi, rfl⟩ := List.mem_iff_getElem.1 hg
        have hi' : i < seq.length := by rw [hre.length_eq]; exact hi
        have hri := hre.get hi' hi
        have hlen := hri.length_eq
        simp only [List.get_eq_getElem] at hlen
        have hle : seq[i].items.length ≤ maxLen seq := by
          apply le_foldl_max
          exact List.mem_map.2 ⟨seq[i], List.getElem_mem _, rfl⟩
        refine ⟨_, rfl, by simp; omega, ?_⟩
        intro y hy
        rcases List.mem_append.1 hy with hy | hy
        · -- an element of the flattened sequence
          have hsub : ∀ (ns : List Nat) (l : List Feat), ∀ g ∈ regroup ns l, ∀ y ∈ g, y ∈ l := by
            intro ns
            induction ns with
            | nil => simp [regroup]
            | cons m ns ih =>
              intro l g hg y hy
              simp only [regroup, List.mem_cons] at hg
              rcases hg with rfl | hg
              · exact List.mem_of_mem_take hy
              · exact List.mem_of_mem_drop (ih _ g hg y hy)
          exact hs' y (hsub _ _ _ hg y hy)
        · rw [(List.mem_replicate.1 hy).2]; exact hs
      · rw [extendAll, List.forall₂_map_right_iff]
        refine List.Forall₂.imp ?_ ((List.forall₂_and_left (p := fun x : Feat => x.isList = true) _ _).2 ⟨hall, hre⟩)
        rintro x g ⟨hx, hg⟩
        rw [Feat.isList_iff.1 hx]
        exact Feat.padRel_list hg hp _
      · intro k m hk
        cases k with
        | zero =>
          simp only [List.getElem?_cons_zero, Option.some.injEq] at hk
          subst hk
          rcases foldl_max_mem (seq.map (fun x => x.items.length)) 0 with h | h
          · refine ⟨x0.items, Feat.atDepth_succ.2 ⟨x0, hx0, ?_⟩, ?_⟩
            · rw [Feat.atDepth_zero]; exact (Feat.isList_iff.1 hx0l).symm
            · have : x0.items.length ≤ maxLen seq :=
                le_foldl_max (l := seq.map (fun x => x.items.length))
                  (List.mem_map.2 ⟨x0, hx0, rfl⟩) _
              have h0 : maxLen seq = 0 := h
              show _ = maxLen seq
              omega
          · obtain ⟨x, hx, hxl⟩ := List.mem_map.1 h
            refine ⟨x.items, Feat.atDepth_succ.2 ⟨x, hx, ?_⟩, hxl⟩
            rw [Feat.atDepth_zero]; exact (Feat.isList_iff.1 (hall x hx)).symm
        | succ k =>
          simp only [List.getElem?_cons_succ] at hk
          obtain ⟨l, hl, hm⟩ := hmin k m hk
          exact ⟨l, (Feat.atDepth_flat hall).2 hl, hm⟩

theorem padSequence_error (n : Nat) (seq : List Feat) (hn : Feat.depthL seq ≤ n)
    (hu : ¬ (Feat.list seq).Uniform) : padSequence (n + 1) seq = .error .value := by
  induction n generalizing seq with
  | zero =>
    exfalso
    apply hu
    apply Feat.uniform_leaves
    intro x hx
    have : ∀ l : List Feat, Feat.depthL l ≤ 0 → ∀ x ∈ l, x.isList = false := by
      intro l
      induction l with
      | nil => simp
      | cons y l ih =>
        intro h x hx
        simp only [Feat.depthL, Nat.le_zero, Nat.max_eq_zero_iff] at h
        rcases List.mem_cons.1 hx with rfl | hx
        · cases x <;> simp [Feat.isList, Feat.depth] at h ⊢
        · exact ih (by omega) x hx
    exact this seq hn x hx
  | succ n ih =>
    have h1 : ¬ seq.all (fun x => !x.isList) = true := by
      intro h
      apply hu
      apply Feat.uniform_leaves
      intro x hx
      have := List.all_eq_true.1 h x hx
      simpa using this
    rw [padSequence, if_neg h1]
    by_cases h2 : seq.all Feat.isList = true
    · have hall := List.all_eq_true.1 h2
      rw [h2, ih (seq.flatMap Feat.items) (depthL_flat hn)
        (fun h => hu ((Feat.uniform_flat hall).2 h))]
      simp
    · simp [h2]

end Verif
