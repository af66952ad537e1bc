import Verif.Spec.UdEval
import Verif.Proofs.Validate

/-! # `process_word` of the UD loader -/

namespace Verif

/-- The HEAD of a word. -/
def UDWord.head (w : UDWord) : Res Int := pyInt (w.col colHEAD)

/-- Following the computed positions from `i` ends at a root or in an earlier sentence. -/
inductive Reach (heads : List (Res Int)) (o : Nat) : Nat → Prop
  | closed {i : Nat} : i < o → Reach heads o i
  | root {i : Nat} : heads[i]? = some (.ok 0) → Reach heads o i
  | step {i p : Nat} {h : Int} : heads[i]? = some (.ok h) → h ≠ 0 → h ≤ (heads.length : Int) - o →
      headTarget o heads.length h = some p → Reach heads o p → Reach heads o i

structure PInv (heads : List (Res Int)) (o : Nat) (words : List UDWord) : Prop where
  heads_eq : words.map UDWord.head = heads
  link : ∀ (i : Nat) (w : UDWord) (p : Nat), words[i]? = some w → w.parent = .word p →
    Reach heads o i ∧ (o ≤ i → ∃ h : Int, heads[i]? = some (.ok h) ∧ h ≠ 0 ∧ h ≤ (heads.length : Int) - o ∧
      headTarget o heads.length h = some p)
  closed : ∀ (i : Nat) (w : UDWord), words[i]? = some w → i < o →
    (∃ p, w.parent = .word p) ∨ (w.parent = .none ∧ w.head = .ok 0)

structure SameSkel (w w' : UDWord) : Prop where
  span : w'.span = w.span
  columns : w'.columns = w.columns
  multi : w'.multi = w.multi

/-- How `process_word` changes the words. -/
def PExt (o : Nat) (words words' : List UDWord) : Prop :=
  List.Forall₂ (fun w w' => SameSkel w w' ∧ (w.parent ≠ .none → w' = w) ∧
    (w'.parent = .remapping → w.parent = .remapping)) words words' ∧
  words'.take o = words.take o

theorem PExt.refl (o : Nat) (words : List UDWord) : PExt o words words :=
  ⟨List.forall₂_same.2 fun _ _ => ⟨⟨rfl, rfl, rfl⟩, fun _ => rfl, id⟩, rfl⟩

theorem PExt.trans {o : Nat} {a b c : List UDWord} (h1 : PExt o a b) (h2 : PExt o b c) : PExt o a c := by
  obtain ⟨h1, e1⟩ := h1
  obtain ⟨h2, e2⟩ := h2
  refine ⟨?_, e2.trans e1⟩
  clear e1 e2
  induction h1 generalizing c with
  | nil => cases h2; exact .nil
  | cons h _ ih =>
    cases h2 with
    | cons h' t =>
      refine .cons ⟨⟨h'.1.span.trans h.1.span, h'.1.columns.trans h.1.columns, h'.1.multi.trans h.1.multi⟩, ?_, ?_⟩ (ih t)
      · intro hn
        have e := h.2.1 hn
        subst e
        exact h'.2.1 hn
      · intro hr; exact h.2.2 (h'.2.2 hr)

theorem PExt.length {o : Nat} {a b : List UDWord} (h : PExt o a b) : b.length = a.length := h.1.length_eq.symm

theorem head_congr {w w' : UDWord} (h : w'.columns = w.columns) : w'.head = w.head := by
  unfold UDWord.head UDWord.col; rw [h]

theorem map_head_set {words : List UDWord} {i : Nat} {w : UDWord} (hw : words[i]? = some w) (l : Link) :
    (words.set i { w with parent := l }).map UDWord.head = words.map UDWord.head := by
  rw [List.map_set]
  apply List.ext_getElem?
  intro j
  rw [List.getElem?_set]
  split
  · rename_i h
    subst h
    obtain ⟨hi, _⟩ := List.getElem?_eq_some_iff.1 hw
    simp only [List.length_map, hi, if_true, List.getElem?_map, hw, Option.map_some]
    rfl
  · rfl

theorem PInv.set_remapping {heads : List (Res Int)} {o : Nat} {words : List UDWord} (h : PInv heads o words)
    {i : Nat} {w : UDWord} (hw : words[i]? = some w) (hi : o ≤ i) :
    PInv heads o (words.set i { w with parent := .remapping }) := by
  refine ⟨by rw [map_head_set hw, h.heads_eq], ?_, ?_⟩
  · intro j w' p hj hp
    rw [List.getElem?_set] at hj
    split at hj
    · split at hj
      · injection hj with hj; subst hj; cases hp
      · cases hj
    · exact h.link j w' p hj hp
  · intro j w' hj hlt
    rw [List.getElem?_set_ne (by omega)] at hj
    exact h.closed j w' hj hlt

theorem PInv.set_word {heads : List (Res Int)} {o : Nat} {words : List UDWord} (h : PInv heads o words)
    {i p : Nat} {w w0 : UDWord} (hw : words[i]? = some w0) (hc : w.columns = w0.columns) (hi : o ≤ i) (hr : Reach heads o i) {hd : Int}
    (h1 : heads[i]? = some (.ok hd)) (h2 : hd ≠ 0) (h3 : hd ≤ (heads.length : Int) - o)
    (h4 : headTarget o heads.length hd = some p) :
    PInv heads o (words.set i { w with parent := .word p }) := by
  refine ⟨?_, ?_, ?_⟩
  · rw [← h.heads_eq, ← map_head_set hw (.word p), List.map_set, List.map_set]
    congr 1
    exact head_congr hc
  · intro j w' q hj hq
    rw [List.getElem?_set] at hj
    split at hj
    · rename_i e
      subst e
      split at hj
      · injection hj with hj; subst hj
        cases hq
        exact ⟨hr, fun _ => ⟨hd, h1, h2, h3, h4⟩⟩
      · cases hj
    · exact h.link j w' q hj hq
  · intro j w' hj hlt
    rw [List.getElem?_set_ne (by omega)] at hj
    exact h.closed j w' hj hlt

theorem PExt.set {o : Nat} {a b : List UDWord} {i : Nat} {w : UDWord} {l : Link} (hw : a[i]? = some w)
    (hp : w.parent = .none) (hi : o ≤ i)
    (h : PExt o (a.set i { w with parent := .remapping }) b) {q : Nat} (hl : l = .word q) :
    PExt o a (b.set i { w with parent := l }) := by
  subst hl
  obtain ⟨hi', _⟩ := List.getElem?_eq_some_iff.1 hw
  constructor
  · rw [List.forall₂_iff_get]
    have hf := h.1
    rw [List.forall₂_iff_get] at hf
    obtain ⟨hl, hf⟩ := hf
    rw [List.length_set] at hl
    refine ⟨by rw [List.length_set]; exact hl, ?_⟩
    intro j h1 h2
    have h3 : j < b.length := by rw [List.length_set] at h2; exact h2
    by_cases e : i = j
    · subst e
      have ew : a.get ⟨i, h1⟩ = w := by
        rw [List.get_eq_getElem]
        rw [List.getElem?_eq_getElem h1] at hw
        exact Option.some.inj hw
      simp only [List.get_eq_getElem, List.getElem_set_self] at ew ⊢
      rw [ew]
      exact ⟨⟨rfl, rfl, rfl⟩, fun hn => absurd hp hn, fun hr => by cases hr⟩
    · have := hf j (by rw [List.length_set]; exact h1) h3
      simp only [List.get_eq_getElem, List.getElem_set, e, if_false] at this ⊢
      exact this
  · rw [List.take_set_of_le hi, h.2, List.take_set_of_le hi]

theorem processWord_sound {heads : List (Res Int)} {o : Nat} : ∀ (d : Nat) (words words' : List UDWord) (i : Nat),
    PInv heads o words → processWord o d words i = .ok words' →
    PInv heads o words' ∧ PExt o words words' ∧ Reach heads o i ∧
      ∃ w', words'[i]? = some w' ∧ ((∃ p, w'.parent = .word p) ∨ (w'.parent = .none ∧ w'.head = .ok 0)) := by
  intro d
  induction d with
  | zero => intro words words' i _ h; simp [processWord] at h
  | succ d ih =>
    intro words words' i hI h
    rw [processWord] at h
    split at h
    · cases h
    · rename_i w hw
      split at h
      · cases h
      · rename_i p hp
        injection h with h; subst h
        exact ⟨hI, .refl _ _, (hI.link i w p hw hp).1, w, hw, .inl ⟨p, hp⟩⟩
      · rename_i hp
        split at h
        · cases h
        · rename_i head hh
          have hheads : heads[i]? = some (.ok head) := by
            rw [← hI.heads_eq, List.getElem?_map, hw, Option.map_some]
            exact congrArg some hh
          split at h
          · cases h
          · rename_i hle
            split at h
            · rename_i h0
              injection h with h; subst h; subst h0
              exact ⟨hI, .refl _ _, .root hheads, w, hw, .inr ⟨hp, hh⟩⟩
            · rename_i h0
              have hoi : o ≤ i := by
                by_contra hlt
                rcases hI.closed i w hw (by omega) with ⟨p, hp'⟩ | ⟨_, hz⟩
                · rw [hp] at hp'; cases hp'
                · unfold UDWord.head at hz
                  rw [hh] at hz; injection hz with hz; exact h0 hz
              have hlen : words.length = heads.length := by rw [← hI.heads_eq, List.length_map]
              split at h
              · cases h
              · rename_i p ht
                rw [hlen] at ht
                split at h
                · cases h
                · rename_i words2 h2
                  injection h with h; subst h
                  obtain ⟨i1, i2, i3, -⟩ := ih _ _ _ (hI.set_remapping hw hoi) h2
                  have hr : Reach heads o i := .step hheads h0 (by omega) ht i3
                  obtain ⟨hi', _⟩ := List.getElem?_eq_some_iff.1 hw
                  have hl2 := i2.length
                  rw [List.length_set] at hl2
                  have hw2 : words2[i]? = some words2[i] := List.getElem?_eq_getElem (by omega)
                  have hc : w.columns = (words2[i]).columns := by
                    have hf := i2.1
                    rw [List.forall₂_iff_get] at hf
                    have := (hf.2 i (by rw [List.length_set]; exact hi') (by omega)).1.columns
                    simp only [List.get_eq_getElem, List.getElem_set_self] at this
                    exact this.symm
                  refine ⟨i1.set_word hw2 hc hoi hr hheads h0 (by omega) ht, i2.set hw hp hoi rfl, hr,
                    { w with parent := .word p }, ?_, .inl ⟨p, rfl⟩⟩
                  rw [List.getElem?_set_self (by omega)]

/-- Following the computed positions from `i` ends at a root after `k` steps. -/
inductive ReachIn (heads : List (Res Int)) (o : Nat) : Nat → Nat → Prop
  | root {i : Nat} : heads[i]? = some (.ok 0) → ReachIn heads o 0 i
  | step {i p k : Nat} {h : Int} : heads[i]? = some (.ok h) → h ≠ 0 → h ≤ (heads.length : Int) - o →
      headTarget o heads.length h = some p → ReachIn heads o k p → ReachIn heads o (k + 1) i

theorem ReachIn.det {heads : List (Res Int)} {o k m i : Nat} (h1 : ReachIn heads o k i) (h2 : ReachIn heads o m i) :
    k = m := by
  induction h1 generalizing m with
  | root h =>
    cases h2 with
    | root _ => rfl
    | step h' h0 _ _ _ => rw [h] at h'; injection h' with h'; injection h' with h'; exact absurd h'.symm h0
  | step h h0 _ ht _ ih =>
    cases h2 with
    | root h' => rw [h] at h'; injection h' with h'; injection h' with h'; exact absurd h' h0
    | step h' _ _ ht' hr' =>
      rw [h] at h'; injection h' with h'; injection h' with h'; subst h'
      rw [ht] at ht'; injection ht' with ht'; subst ht'
      rw [ih hr']

/-- Word `j` is reached from word `i` by the computed positions. -/
inductive PathTo (heads : List (Res Int)) (o : Nat) : Nat → Nat → Prop
  | refl (i : Nat) : PathTo heads o i i
  | step {i p j : Nat} {h : Int} : heads[i]? = some (.ok h) → h ≠ 0 →
      headTarget o heads.length h = some p → PathTo heads o p j → PathTo heads o i j

theorem PathTo.snoc {heads : List (Res Int)} {o i j p : Nat} {h : Int} (hp : PathTo heads o i j)
    (h1 : heads[j]? = some (.ok h)) (h2 : h ≠ 0) (h3 : headTarget o heads.length h = some p) :
    PathTo heads o i p := by
  induction hp with
  | refl => exact .step h1 h2 h3 (.refl _)
  | step a b c _ ih => exact .step a b c (ih h1)

/-- Following the computed positions from `i` leads to a root or into `S` after `k` steps. -/
inductive MeetIn (heads : List (Res Int)) (o : Nat) (S : Nat → Prop) : Nat → Nat → Prop
  | root {i : Nat} : heads[i]? = some (.ok 0) → MeetIn heads o S 0 i
  | seen {i : Nat} : S i → MeetIn heads o S 0 i
  | step {i p k : Nat} {h : Int} : heads[i]? = some (.ok h) → h ≠ 0 →
      headTarget o heads.length h = some p → MeetIn heads o S k p → MeetIn heads o S (k + 1) i

/-- The word at position `j` is finished. -/
def Done (words : List UDWord) (j : Nat) : Prop :=
  ∀ w, words[j]? = some w → (∃ p, w.parent = .word p) ∨ (w.parent = .none ∧ w.head = .ok 0)

theorem processWord_complete {heads : List (Res Int)} {o : Nat} {S : Nat → Prop}
    (hS : ∀ (j p : Nat) (h : Int), S j → heads[j]? = some (.ok h) → h ≠ 0 → headTarget o heads.length h = some p → S p)
    (hpos : ∀ (j p : Nat) (h : Int), o ≤ j → heads[j]? = some (.ok h) → h ≠ 0 → headTarget o heads.length h = some p → o ≤ p) :
    ∀ (d k m : Nat) (words : List UDWord) (i : Nat),
    words.map UDWord.head = heads → ReachIn heads o k i → MeetIn heads o S m i → m < d → o ≤ heads.length →
    (∀ (j : Nat) (w : UDWord), words[j]? = some w → w.parent = .remapping → ∀ m, ReachIn heads o m j → k < m) →
    (∀ j, S j → Done words j) →
    (∀ (j p : Nat) (w : UDWord), o ≤ j → words[j]? = some w → w.parent = .word p → S j) →
    o ≤ i →
    ∃ words', processWord o d words i = .ok words' ∧ ∀ j, S j ∨ PathTo heads o i j → Done words' j := by
  intro d
  induction d with
  | zero => intro k m words i _ _ _ h; omega
  | succ d ih =>
    intro k m words i hh hr hmeet hk ho hm hdone hword hoi
    have hlen : words.length = heads.length := by rw [← hh, List.length_map]
    have hget : ∀ {h : Int}, heads[i]? = some (.ok h) → ∃ w, words[i]? = some w ∧ pyInt (w.col colHEAD) = .ok h := by
      intro h hi
      rw [← hh, List.getElem?_map, Option.map_eq_some_iff] at hi
      exact hi
    have hpath : S i → ∀ j, PathTo heads o i j → S j := by
      intro hi j hj
      clear * - hS hi hj
      induction hj with
      | refl => exact hi
      | step a b c _ ih => exact ih (hS _ _ _ hi a b c)
    have hseen : S i → ∀ j, S j ∨ PathTo heads o i j → Done words j := by
      rintro hi j (hj | hj)
      · exact hdone j hj
      · exact hdone j (hpath hi j hj)
    rw [processWord]
    cases hr with
    | root h =>
      obtain ⟨w, hw, hp⟩ := hget h
      have hroot : ∀ j, PathTo heads o i j → j = i := by
        intro j hj
        cases hj with
        | refl => rfl
        | step a b _ _ => rw [h] at a; injection a with a; injection a with a; exact absurd a.symm b
      simp only [hw]
      cases hpar : w.parent with
      | remapping => exact absurd (hm i w hw hpar 0 (.root h)) (by omega)
      | word p =>
        refine ⟨_, rfl, ?_⟩
        rintro j (hj | hj)
        · exact hdone j hj
        · rw [hroot j hj]
          intro w' hw'
          rw [hw] at hw'; injection hw' with hw'; subst hw'
          exact .inl ⟨p, hpar⟩
      | none =>
        simp only [hp]
        obtain ⟨hi, _⟩ := List.getElem?_eq_some_iff.1 hw
        rw [if_neg (by omega)]
        refine ⟨_, rfl, ?_⟩
        rintro j (hj | hj)
        · exact hdone j hj
        · rw [hroot j hj]
          intro w' hw'
          rw [hw] at hw'; injection hw' with hw'; subst hw'
          exact .inr ⟨hpar, hp⟩
    | step h h0 hle ht hr' =>
      rename_i p k h'
      obtain ⟨w, hw, hp⟩ := hget h
      simp only [hw]
      cases hpar : w.parent with
      | remapping => exact absurd (hm i w hw hpar _ (.step h h0 hle ht hr')) (by omega)
      | word q => exact ⟨_, rfl, hseen (hword i q w hoi hw hpar)⟩
      | none =>
        simp only [hp]
        rw [if_neg (by omega), if_neg h0, hlen, ht]
        have hnS : ¬ S i := by
          intro hi
          rcases hdone i hi w hw with ⟨q, hq⟩ | ⟨_, hz⟩
          · rw [hpar] at hq; cases hq
          · unfold UDWord.head at hz
            rw [hp] at hz; injection hz with hz; exact h0 hz
        cases hmeet with
        | root h'' => rw [h] at h''; injection h'' with h''; injection h'' with h''; exact absurd h'' h0
        | seen hi => exact absurd hi hnS
        | step a b c hmeet' =>
          rename_i p' m h2
          rw [h] at a; injection a with a; injection a with a; subst a
          rw [ht] at c; injection c with c; subst c
          obtain ⟨words', hw', hd'⟩ := ih k m (words.set i { w with parent := .remapping }) p
            (by rw [map_head_set hw, hh]) hr' hmeet' (by omega) ho (by
              intro j w' hj hr m hm'
              rw [List.getElem?_set] at hj
              split at hj
              · rename_i e
                subst e
                have := ReachIn.det hm' (.step h h0 hle ht hr')
                omega
              · have := hm j w' hj hr m hm'
                omega) (by
              intro j hj w' hw'
              rw [List.getElem?_set] at hw'
              split at hw'
              · rename_i e; subst e; exact absurd hj hnS
              · exact hdone j hj w' hw') (by
              intro j q w' hj hw' hq
              rw [List.getElem?_set] at hw'
              split at hw'
              · split at hw'
                · injection hw' with hw'; subst hw'; cases hq
                · cases hw'
              · exact hword j q w' hj hw' hq) (hpos i p h' hoi h h0 ht)
          simp only [hw']
          refine ⟨_, rfl, ?_⟩
          intro j hj w' hw'
          rw [List.getElem?_set] at hw'
          split at hw'
          · split at hw'
            · injection hw' with hw'; subst hw'; exact .inl ⟨p, rfl⟩
            · cases hw'
          · rename_i e
            refine hd' j ?_ w' hw'
            rcases hj with hj | hj
            · exact .inl hj
            · cases hj with
              | refl => exact absurd rfl e
              | step a b c q =>
                rw [h] at a; injection a with a; injection a with a; subst a
                rw [ht] at c; injection c with c; subst c
                exact .inr q

/-- A word from which the root is reached can fail only by recursing too deeply. -/
theorem processWord_recursion {heads : List (Res Int)} {o : Nat} : ∀ (d k : Nat) (words : List UDWord) (i : Nat),
    words.map UDWord.head = heads → ReachIn heads o k i → o ≤ heads.length →
    (∀ (j : Nat) (w : UDWord), words[j]? = some w → w.parent = .remapping → ∀ m, ReachIn heads o m j → k < m) →
    (∃ words', processWord o d words i = .ok words') ∨ processWord o d words i = .error .recursion := by
  intro d
  induction d with
  | zero => intro k words i _ _ _ _; exact .inr rfl
  | succ d ih =>
    intro k words i hh hr ho hm
    have hlen : words.length = heads.length := by rw [← hh, List.length_map]
    have hget : ∀ {h : Int}, heads[i]? = some (.ok h) → ∃ w, words[i]? = some w ∧ pyInt (w.col colHEAD) = .ok h := by
      intro h hi
      rw [← hh, List.getElem?_map, Option.map_eq_some_iff] at hi
      exact hi
    rw [processWord]
    cases hr with
    | root h =>
      obtain ⟨w, hw, hp⟩ := hget h
      simp only [hw]
      cases hpar : w.parent with
      | remapping => exact absurd (hm i w hw hpar 0 (.root h)) (by omega)
      | word p => exact .inl ⟨_, rfl⟩
      | none =>
        simp only [hp]
        obtain ⟨hi, _⟩ := List.getElem?_eq_some_iff.1 hw
        rw [if_neg (by omega)]
        exact .inl ⟨_, rfl⟩
    | step h h0 hle ht hr' =>
      rename_i p k h'
      obtain ⟨w, hw, hp⟩ := hget h
      simp only [hw]
      cases hpar : w.parent with
      | remapping => exact absurd (hm i w hw hpar _ (.step h h0 hle ht hr')) (by omega)
      | word p => exact .inl ⟨_, rfl⟩
      | none =>
        simp only [hp]
        rw [if_neg (by omega), if_neg h0, hlen, ht]
        rcases ih k (words.set i { w with parent := .remapping }) p
          (by rw [map_head_set hw, hh]) hr' ho (by
            intro j w' hj hr m hm'
            rw [List.getElem?_set] at hj
            split at hj
            · rename_i e
              subst e
              have := ReachIn.det hm' (.step h h0 hle ht hr')
              omega
            · have := hm j w' hj hr m hm'
              omega) with ⟨words', hw'⟩ | he
        · simp only [hw']
          exact .inl ⟨_, rfl⟩
        · right
          simp only [he]

/-- What `process_word` finishes lies on the path it follows, and it does not follow it too far. -/
theorem processWord_meets {heads : List (Res Int)} {o : Nat} {S : Nat → Prop}
    (hpos : ∀ (j p : Nat) (h : Int), o ≤ j → heads[j]? = some (.ok h) → h ≠ 0 → headTarget o heads.length h = some p → o ≤ p) :
    ∀ (d : Nat) (words words' : List UDWord) (i : Nat), o ≤ i → words.map UDWord.head = heads →
    (∀ (j : Nat) (w : UDWord) (p : Nat), o ≤ j → words[j]? = some w → w.parent = .word p → S j) →
    processWord o d words i = .ok words' →
    (∃ k < d, MeetIn heads o S k i) ∧
      ∀ (j : Nat) (w : UDWord) (p : Nat), o ≤ j → words'[j]? = some w → w.parent = .word p → S j ∨ PathTo heads o i j := by
  intro d
  induction d with
  | zero => intro words words' i _ _ _ h; simp [processWord] at h
  | succ d ih =>
    intro words words' i hoi hh hS h
    have hlen : words.length = heads.length := by rw [← hh, List.length_map]
    rw [processWord] at h
    split at h
    · cases h
    · rename_i w hw
      split at h
      · cases h
      · rename_i p hp
        injection h with h; subst h
        exact ⟨⟨0, by omega, .seen (hS i w p hoi hw hp)⟩, fun j w p hj hw hp => .inl (hS j w p hj hw hp)⟩
      · rename_i hp
        split at h
        · cases h
        · rename_i head hhead
          have hheads : heads[i]? = some (.ok head) := by
            rw [← hh, List.getElem?_map, hw, Option.map_some]
            exact congrArg some hhead
          split at h
          · cases h
          · rename_i hle
            split at h
            · rename_i h0
              injection h with h; subst h; subst h0
              exact ⟨⟨0, by omega, .root hheads⟩, fun j w p hj hw hp => .inl (hS j w p hj hw hp)⟩
            · rename_i h0
              split at h
              · cases h
              · rename_i p ht
                rw [hlen] at ht
                split at h
                · cases h
                · rename_i words2 h2
                  injection h with h; subst h
                  obtain ⟨⟨k, hk, hm⟩, q⟩ := ih _ _ _ (hpos i p head hoi hheads h0 ht) (by rw [map_head_set hw, hh]) (by
                    intro j w' p' hj hw' hp'
                    rw [List.getElem?_set] at hw'
                    split at hw'
                    · split at hw'
                      · injection hw' with hw'; subst hw'; cases hp'
                      · cases hw'
                    · exact hS j w' p' hj hw' hp') h2
                  refine ⟨⟨k + 1, by omega, .step hheads h0 ht hm⟩, ?_⟩
                  intro j w' p' hj hw' hp'
                  rw [List.getElem?_set] at hw'
                  split at hw'
                  · rename_i e
                    subst e
                    exact .inr (.refl _)
                  · rcases q j w' p' hj hw' hp' with q | q
                    · exact .inl q
                    · exact .inr (.step hheads h0 ht q)

theorem forM'_map {σ α β : Type} {f : σ → β → Res σ} {g : α → β} {s : σ} {l : List α} :
    forM' f s (l.map g) = forM' (fun s x => f s (g x)) s l := by
  induction l generalizing s with
  | nil => rfl
  | cons a l ih =>
    simp only [List.map_cons, forM']
    cases f s (g a) with
    | error e => rfl
    | ok s' => exact ih

/-- What the loop over the words of a sentence establishes. -/
structure SentInv (heads : List (Res Int)) (o : Nat) (words0 : List UDWord) (k : Nat) (words : List UDWord) : Prop where
  inv : PInv heads o words
  ext : PExt o words0 words
  done : ∀ i < k, Reach heads o (o + i) ∧
    ∃ w', words[o + i]? = some w' ∧ ((∃ p, w'.parent = .word p) ∨ (w'.parent = .none ∧ w'.head = .ok 0))

theorem PExt.done {o : Nat} {a b : List UDWord} (h : PExt o a b) {i : Nat} {w' : UDWord} (hw : a[i]? = some w')
    (hd : (∃ p, w'.parent = .word p) ∨ (w'.parent = .none ∧ w'.head = .ok 0)) (hinv : ∀ (w : UDWord) (p : Nat), b[i]? = some w → w.parent = .word p → w.head ≠ .ok 0) :
    ∃ w, b[i]? = some w ∧ ((∃ p, w.parent = .word p) ∨ (w.parent = .none ∧ w.head = .ok 0)) := by
  obtain ⟨hi, e⟩ := List.getElem?_eq_some_iff.1 hw
  have hl := h.length
  have hf := h.1
  rw [List.forall₂_iff_get] at hf
  have hs := hf.2 i hi (by omega)
  simp only [List.get_eq_getElem] at hs
  rw [e] at hs
  have hb : b[i]? = some b[i] := List.getElem?_eq_getElem (by omega)
  refine ⟨b[i], hb, ?_⟩
  rcases hd with ⟨p, hp⟩ | ⟨hp, hh⟩
  · rw [hs.2.1 (by rw [hp]; simp)]
    exact .inl ⟨p, hp⟩
  · have hc : (b[i]).head = .ok 0 := by rw [head_congr hs.1.columns, hh]
    cases hpar : (b[i]).parent with
    | none => exact .inr ⟨rfl, hc⟩
    | word q => exact absurd hc (hinv _ q hb hpar)
    | remapping => have := hs.2.2 hpar; rw [hp] at this; cases this

theorem PInv.word_ne_zero {heads : List (Res Int)} {o : Nat} {words : List UDWord} (h : PInv heads o words) {i : Nat}
    (hi : o ≤ i) {w : UDWord} {p : Nat} (hw : words[i]? = some w) (hp : w.parent = .word p) : w.head ≠ .ok 0 := by
  obtain ⟨_, h2⟩ := h.link i w p hw hp
  obtain ⟨hd, e, h0, _⟩ := h2 hi
  intro hz
  rw [← h.heads_eq, List.getElem?_map, hw, Option.map_some, hz] at e
  injection e with e; injection e with e
  exact h0 e.symm

theorem sent_loop_sound {heads : List (Res Int)} {o n d : Nat} {words0 words : List UDWord}
    (hI : PInv heads o words0)
    (h : forM' (processWord o d) words0 ((List.range n).map (o + ·)) = .ok words) :
    SentInv heads o words0 n words := by
  rw [forM'_map] at h
  refine forM'_range_inv (I := SentInv heads o words0) ⟨hI, .refl _ _, by omega⟩ ?_ words h
  intro i s s' _ hs hst
  obtain ⟨h1, h2, h3, h4⟩ := processWord_sound _ _ _ _ hs.inv hst
  refine ⟨h1, hs.ext.trans h2, ?_⟩
  intro j hj
  by_cases e : j = i
  · subst e; exact ⟨h3, h4⟩
  · obtain ⟨r, w', hw', hd⟩ := hs.done j (by omega)
    exact ⟨r, h2.done hw' hd (fun w p hw hp => h1.word_ne_zero (by omega) hw hp)⟩

/-- The words on the paths from the first `b` words of the sentence. -/
def Passed (heads : List (Res Int)) (o b j : Nat) : Prop := ∃ i < b, PathTo heads o (o + i) j

theorem sent_loop_complete {heads : List (Res Int)} {o n d : Nat} {words0 : List UDWord}
    (hI : PInv heads o words0) (hn : o + n = words0.length)
    (hno : ∀ w ∈ words0, w.parent ≠ .remapping)
    (hpos : ∀ (j p : Nat) (h : Int), o ≤ j → heads[j]? = some (.ok h) → h ≠ 0 → headTarget o heads.length h = some p → o ≤ p)
    (hopen : ∀ (j p : Nat) (w : UDWord), o ≤ j → words0[j]? = some w → w.parent ≠ .word p)
    (hr : ∀ i < n, ∃ k, ReachIn heads o k (o + i))
    (hm : ∀ i < n, ∃ k < d, MeetIn heads o (Passed heads o i) k (o + i)) :
    ∃ words, forM' (processWord o d) words0 ((List.range n).map (o + ·)) = .ok words := by
  rw [forM'_map]
  have hlen : words0.length = heads.length := by rw [← hI.heads_eq, List.length_map]
  obtain ⟨s, hs, _⟩ := forM'_range_ok (n := n) (f := fun s x => processWord o d s (o + x))
    (I := fun b ws => PInv heads o ws ∧ PExt o words0 ws ∧ (∀ j, Passed heads o b j → Done ws j) ∧
      ∀ (j p : Nat) (w : UDWord), o ≤ j → ws[j]? = some w → w.parent = .word p → Passed heads o b j)
    (s₀ := words0) ⟨hI, .refl _ _, by rintro j ⟨i, hi, _⟩; omega,
      fun j p w hj hw hp => absurd hp (hopen j p w hj hw)⟩ (by
      intro i s hi ⟨hs1, hs2, hs3, hs4⟩
      obtain ⟨k, hrk⟩ := hr i hi
      obtain ⟨m, hmd, hmk⟩ := hm i hi
      have hnr : ∀ w ∈ s, w.parent ≠ .remapping := by
        intro w hw hr
        obtain ⟨j, hj, e⟩ := List.getElem_of_mem hw
        have hf := hs2.1
        rw [List.forall₂_iff_get] at hf
        have hjl : j < words0.length := by have := hs2.length; omega
        have := (hf.2 j hjl hj).2.2
        simp only [List.get_eq_getElem, e] at this
        exact hno _ (List.getElem_mem hjl) (this hr)
      obtain ⟨s', hs', hd'⟩ := processWord_complete (S := Passed heads o i)
        (by rintro j p h ⟨q, hq, hp⟩ a b c; exact ⟨q, hq, hp.snoc a b c⟩) hpos d k m s (o + i) hs1.heads_eq hrk hmk hmd (by omega)
        (fun j w hj hrm => absurd hrm (hnr w (List.mem_of_getElem? hj))) hs3 hs4 (by omega)
      obtain ⟨h1, h2, _⟩ := processWord_sound _ _ _ _ hs1 hs'
      have h3 := (processWord_meets (S := Passed heads o i) hpos d s s' (o + i) (by omega) hs1.heads_eq
        (fun j w p hj hw hp => hs4 j p w hj hw hp) hs').2
      refine ⟨s', hs', h1, hs2.trans h2, ?_, ?_⟩
      · rintro j ⟨q, hq, hp⟩
        by_cases e : q = i
        · subst e; exact hd' j (.inr hp)
        · exact hd' j (.inl ⟨q, by omega, hp⟩)
      · intro j p w hj hw hp
        rcases h3 j w p hj hw hp with ⟨q, hq, h⟩ | h
        · exact ⟨q, by omega, h⟩
        · exact ⟨i, by omega, h⟩)
  exact ⟨s, hs⟩

theorem forM'_range_or {σ : Type} {f : σ → Nat → Res σ} {I : Nat → σ → Prop} {e : Err} {s₀ : σ} (h0 : I 0 s₀)
    (n : Nat) (hstep : ∀ i s, i < n → I i s → (∃ s', f s i = .ok s' ∧ I (i + 1) s') ∨ f s i = .error e) :
    (∃ s, forM' f s₀ (List.range n) = .ok s ∧ I n s) ∨ forM' f s₀ (List.range n) = .error e := by
  induction n with
  | zero => exact .inl ⟨s₀, rfl, h0⟩
  | succ n ih =>
    rw [List.range_succ, forM'_append]
    rcases ih (fun i s hi => hstep i s (by omega)) with ⟨s, h1, h2⟩ | h1
    · rcases hstep n s (by omega) h2 with ⟨s', h3, h4⟩ | h3
      · exact .inl ⟨s', by simp [h1, forM', h3], h4⟩
      · exact .inr (by simp [h1, forM', h3])
    · exact .inr (by simp [h1])

theorem sent_loop_recursion {heads : List (Res Int)} {o n d : Nat} {words0 : List UDWord}
    (hI : PInv heads o words0) (hn : o + n = words0.length)
    (hno : ∀ w ∈ words0, w.parent ≠ .remapping)
    (hr : ∀ i < n, ∃ k, ReachIn heads o k (o + i)) :
    (∃ words, forM' (processWord o d) words0 ((List.range n).map (o + ·)) = .ok words) ∨
      forM' (processWord o d) words0 ((List.range n).map (o + ·)) = .error .recursion := by
  rw [forM'_map]
  have hlen : words0.length = heads.length := by rw [← hI.heads_eq, List.length_map]
  have := forM'_range_or (n := n) (f := fun s x => processWord o d s (o + x)) (e := .recursion)
    (I := fun _ ws => PInv heads o ws ∧ PExt o words0 ws) (s₀ := words0) ⟨hI, .refl _ _⟩ (by
      intro i s hi ⟨hs1, hs2⟩
      obtain ⟨k, hrk⟩ := hr i hi
      have hnr : ∀ w ∈ s, w.parent ≠ .remapping := by
        intro w hw hr
        obtain ⟨j, hj, e⟩ := List.getElem_of_mem hw
        have hf := hs2.1
        rw [List.forall₂_iff_get] at hf
        have hjl : j < words0.length := by have := hs2.length; omega
        have := (hf.2 j hjl hj).2.2
        simp only [List.get_eq_getElem, e] at this
        exact hno _ (List.getElem_mem hjl) (this hr)
      rcases processWord_recursion d k s (o + i) hs1.heads_eq hrk (by omega)
        (fun j w hj hrm => absurd hrm (hnr w (List.mem_of_getElem? hj))) with ⟨s', hs'⟩ | he
      · obtain ⟨h1, h2, _⟩ := processWord_sound _ _ _ _ hs1 hs'
        exact .inl ⟨s', hs', h1, hs2.trans h2⟩
      · exact .inr he)
  rcases this with ⟨s, h, _⟩ | h
  · exact .inl ⟨s, h⟩
  · exact .inr h

theorem sent_loop_meets {heads : List (Res Int)} {o n d : Nat} {words0 words : List UDWord}
    (hI : PInv heads o words0)
    (hpos : ∀ (j p : Nat) (h : Int), o ≤ j → heads[j]? = some (.ok h) → h ≠ 0 → headTarget o heads.length h = some p → o ≤ p)
    (hopen : ∀ (j p : Nat) (w : UDWord), o ≤ j → words0[j]? = some w → w.parent ≠ .word p)
    (h : forM' (processWord o d) words0 ((List.range n).map (o + ·)) = .ok words) :
    ∀ i < n, ∃ k < d, MeetIn heads o (Passed heads o i) k (o + i) := by
  rw [forM'_map] at h
  have := forM'_range_inv (f := fun s x => processWord o d s (o + x))
    (I := fun b ws => PInv heads o ws ∧ (∀ i < b, ∃ k < d, MeetIn heads o (Passed heads o i) k (o + i)) ∧
      ∀ (j p : Nat) (w : UDWord), o ≤ j → ws[j]? = some w → w.parent = .word p → Passed heads o b j)
    (s₀ := words0) (n := n) ⟨hI, by intros; omega, fun j p w hj hw hp => absurd hp (hopen j p w hj hw)⟩ (by
      intro i s s' _ ⟨hs1, hs2, hs3⟩ hst
      obtain ⟨h1, _⟩ := processWord_sound _ _ _ _ hs1 hst
      obtain ⟨h2, h3⟩ := processWord_meets (S := Passed heads o i) hpos d s s' (o + i) (by omega) hs1.heads_eq
        (fun j w p hj hw hp => hs3 j p w hj hw hp) hst
      refine ⟨h1, ?_, ?_⟩
      · intro j hj
        by_cases e : j = i
        · subst e; exact h2
        · exact hs2 j (by omega)
      · intro j p w hj hw hp
        rcases h3 j w p hj hw hp with ⟨q, hq, h⟩ | h
        · exact ⟨q, by omega, h⟩
        · exact ⟨i, by omega, h⟩) words h
  exact this.2.1

end Verif
