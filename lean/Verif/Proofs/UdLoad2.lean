import Verif.Proofs.UdLoad
import Verif.Props.Conllu3

/-! # The UD loader: closing a sentence, and whole files -/

namespace Verif

/-! ### Layout -/

theorem udLength_append (a b : List UdToken) : udLength (a ++ b) = udLength a + udLength b := by
  simp [udLength]

theorem udLength_cons (u : UdToken) (us : List UdToken) : udLength (u :: us) = u.form.length + udLength us := by
  simp [udLength]

theorem tokSpans_append (off : Nat) (a b : List UdToken) :
    tokSpans off (a ++ b) = tokSpans off a ++ tokSpans (off + udLength a) b := by
  induction a generalizing off with
  | nil => simp [tokSpans, udLength]
  | cons u a ih => simp [tokSpans, ih, udLength_cons, Nat.add_assoc]

theorem tokWords_append (off : Nat) (a b : List UdToken) :
    tokWords off (a ++ b) = tokWords off a ++ tokWords (off + udLength a) b := by
  induction a generalizing off with
  | nil => simp [tokWords, udLength]
  | cons u a ih => simp [tokWords, ih, udLength_cons, Nat.add_assoc]

theorem sentSpans_append (off : Nat) (a b : List (List UdToken)) :
    sentSpans off (a ++ b) = sentSpans off a ++ sentSpans (off + udLength a.flatten) b := by
  induction a generalizing off with
  | nil => simp [sentSpans, udLength]
  | cons u a ih => simp [sentSpans, ih, udLength_append, Nat.add_assoc]

theorem rowsOf_eq (off : Nat) (us : List UdToken) : (tokWords off us).map (fun p => p.2.2) = rowsOf us := by
  induction us generalizing off with
  | nil => rfl
  | cons u us ih =>
    simp only [tokWords, List.map_append, ih, rowsOf, List.flatMap_cons, List.map_map]
    congr 1
    exact List.map_id'' (fun _ => rfl) _

theorem LinksOf.append {o : Nat} {a b : List (List UdToken)} {ls ms : List Link}
    (h1 : LinksOf o a ls) (h2 : LinksOf (o + (rowsOf a.flatten).length) b ms) : LinksOf o (a ++ b) (ls ++ ms) := by
  induction a generalizing o ls with
  | nil =>
    cases h1
    simpa [rowsOf] using h2
  | cons us a ih =>
    obtain ⟨x, y, e, hx, hy⟩ := h1
    refine ⟨x, y ++ ms, by rw [e, List.append_assoc], hx, ih hy ?_⟩
    rw [List.flatten_cons] at h2
    simpa [rowsOf, Nat.add_assoc] using h2

def wordOf (p : Span × Bool × List Str) : UDWord := mkWord p.1 p.2.1 p.2.2

theorem addToks_eq (st : LState) (us : List UdToken) :
    addToks st us = { st with
      ud := { st.ud with
        characters := st.ud.characters ++ us.flatMap UdToken.form
        tokens := st.ud.tokens ++ tokSpans st.index us
        words := st.ud.words ++ (tokWords st.index us).map wordOf }
      index := st.index + udLength us } := by
  induction us generalizing st with
  | nil => simp [addToks, tokSpans, tokWords, udLength]
  | cons u us ih =>
    show addToks (addTok st u) us = _
    rw [ih]
    simp only [addTok, tokSpans, tokWords, List.flatMap_cons, List.append_assoc, List.map_append, List.map_map,
      udLength_cons, Nat.add_assoc]
    rfl

/-! ### Closing a sentence -/

def ClosedWord (w : UDWord) : Prop := (∃ p, w.parent = .word p) ∨ (w.parent = .none ∧ w.head = .ok 0)

/-- The state between two sentences. -/
structure ClosedState (sents : List (List UdToken)) (st : LState) : Prop where
  index : st.index = udLength sents.flatten
  of : UdOf sents st.ud
  pending : st.pending = 0
  start : st.sentStart = none
  closed : ∀ w ∈ st.ud.words, ClosedWord w

theorem filter_one_iff {α : Type} {p : α → Bool} {l : List α} :
    (l.filter p).length = 1 ↔ ∃! i : Nat, ∃ a, l[i]? = some a ∧ p a = true := by
  induction l with
  | nil => simp [ExistsUnique]
  | cons x l ih =>
    by_cases hx : p x = true
    · rw [List.filter_cons_of_pos hx, List.length_cons]
      constructor
      · intro h
        refine ⟨0, ⟨x, rfl, hx⟩, ?_⟩
        rintro (_ | j) ⟨a, ha, hp⟩
        · rfl
        · have hl : l.filter p = [] := List.length_eq_zero_iff.1 (by omega)
          have : a ∈ l.filter p := List.mem_filter.2 ⟨List.mem_of_getElem? (by simpa using ha), hp⟩
          rw [hl] at this; simp at this
      · rintro ⟨i, _, hu⟩
        have h0 := hu 0 ⟨x, rfl, hx⟩
        have hl : l.filter p = [] := by
          rw [List.filter_eq_nil_iff]
          intro a ha hp
          obtain ⟨j, hj, e⟩ := List.getElem_of_mem ha
          have := hu (j + 1) ⟨a, by simp [hj, e], hp⟩
          omega
        simp [hl]
    · rw [List.filter_cons_of_neg hx, ih]
      constructor
      · rintro ⟨i, ⟨a, ha, hp⟩, hu⟩
        refine ⟨i + 1, ⟨a, by simpa using ha, hp⟩, ?_⟩
        rintro (_ | j) ⟨b, hb, hq⟩
        · simp only [List.getElem?_cons_zero, Option.some.injEq] at hb; subst hb; exact absurd hq hx
        · have := hu j ⟨b, by simpa using hb, hq⟩; omega
      · rintro ⟨i, ⟨a, ha, hp⟩, hu⟩
        cases i with
        | zero => simp only [List.getElem?_cons_zero, Option.some.injEq] at ha; subst ha; exact absurd hp hx
        | succ i =>
          refine ⟨i, ⟨a, by simpa using ha, hp⟩, ?_⟩
          rintro j ⟨b, hb, hq⟩
          have := hu (j + 1) ⟨b, by simpa using hb, hq⟩
          omega

theorem headTarget_pos {o n : Nat} {h : Int} (h0 : 0 < h) (hle : h ≤ (n : Int) - o) :
    headTarget o n h = some (o + (h.toNat - 1)) := by
  unfold headTarget
  simp only
  rw [if_neg (show ¬ (o : Int) + h - 1 < 0 by omega), if_neg (by omega)]
  congr 1
  omega

theorem word_head (p : Span × Bool × List Str) : (wordOf p).head = pyInt (colOf p.2.2 colHEAD) := rfl

theorem climbs_of_reach {hs : List Int} {heads : List (Res Int)} {o : Nat} (hlen : heads.length = o + hs.length)
    (hh : ∀ i : Nat, heads[o + i]? = (hs[i]?).map .ok) (hpos : ∀ h ∈ hs, 0 ≤ h) {j : Nat} (hr : Reach heads o j) :
    ∀ i, j = o + i → ∃ k, Climbs hs k i := by
  induction hr with
  | closed hlt => intro i e; omega
  | root h =>
    intro i e
    subst e
    rw [hh, Option.map_eq_some_iff] at h
    obtain ⟨a, ha, e⟩ := h
    injection e with e
    subst e
    exact ⟨0, .root ha⟩
  | step h h0 hle ht _ ih =>
    rename_i p x _
    intro i e
    subst e
    rw [hh, Option.map_eq_some_iff] at h
    obtain ⟨a, ha, e⟩ := h
    injection e with e
    subst e
    have hp := hpos a (List.mem_of_getElem? ha)
    have hp' : 0 < a := by omega
    rw [headTarget_pos hp' hle] at ht
    injection ht with ht
    obtain ⟨k, hk⟩ := ih (a.toNat - 1) ht.symm
    refine ⟨k + 1, .step (h := a.toNat - 1) ?_ hk⟩
    rw [ha]
    congr 1
    omega

theorem Climbs.lt {hs : List Int} {k i : Nat} (h : Climbs hs k i) : i < hs.length := by
  cases h with
  | root h => exact (List.getElem?_eq_some_iff.1 h).1
  | step h _ => exact (List.getElem?_eq_some_iff.1 h).1

theorem HeadTree.range {hs : List Int} (h : HeadTree hs) : ∀ x ∈ hs, 0 ≤ x ∧ x ≤ hs.length := by
  intro x hx
  obtain ⟨i, hi, e⟩ := List.getElem_of_mem hx
  obtain ⟨k, hk⟩ := h.2 i hi
  cases hk with
  | root h0 =>
    rw [List.getElem?_eq_getElem hi, e] at h0
    injection h0 with h0; omega
  | step h0 hc =>
    rw [List.getElem?_eq_getElem hi, e] at h0
    injection h0 with h0
    have := hc.lt
    omega

theorem reachIn_of_climbs {hs : List Int} {heads : List (Res Int)} {o : Nat} (hlen : heads.length = o + hs.length)
    (hh : ∀ i : Nat, heads[o + i]? = (hs[i]?).map .ok) {k i : Nat} (hc : Climbs hs k i) :
    ReachIn heads o k (o + i) := by
  induction hc with
  | root h => exact .root (by rw [hh, h]; rfl)
  | step h hc ih =>
    rename_i i h' k
    have hlt := hc.lt
    refine .step (h := (h' : Int) + 1) (by rw [hh, h]; rfl) (by omega) (by omega)
      (p := o + h') ?_ ih
    rw [headTarget_pos (by omega) (by omega)]
    congr 2

theorem headTarget_of_pos {o n p : Nat} {h : Int} (h0 : 0 < h) (ht : headTarget o n h = some p) :
    p = o + (h.toNat - 1) := by
  unfold headTarget at ht
  simp only at ht
  rw [if_neg (show ¬ (o : Int) + h - 1 < 0 by omega)] at ht
  split at ht
  · cases ht
  · injection ht with ht; omega

section
variable {hs : List Int} {heads : List (Res Int)} {o : Nat} (hlen : heads.length = o + hs.length)
  (hh : ∀ i : Nat, heads[o + i]? = (hs[i]?).map .ok)
include hh

theorem head_of_heads {i : Nat} {h : Int} (h1 : heads[o + i]? = some (.ok h)) : hs[i]? = some h := by
  rw [hh, Option.map_eq_some_iff] at h1
  obtain ⟨a, ha, e⟩ := h1
  injection e with e
  rw [ha, e]

theorem target_ge (hpos : ∀ h ∈ hs, 0 ≤ h) (j p : Nat) (h : Int) (hj : o ≤ j) (h1 : heads[j]? = some (.ok h)) (h0 : h ≠ 0)
    (ht : headTarget o heads.length h = some p) : o ≤ p := by
  obtain ⟨i, rfl⟩ := Nat.exists_eq_add_of_le hj
  have := hpos h (List.mem_of_getElem? (head_of_heads hh h1))
  rw [headTarget_of_pos (by omega) ht]
  omega

theorem above_of_pathTo (hpos : ∀ h ∈ hs, 0 ≤ h) {a b : Nat} (hp : PathTo heads o a b) :
    ∀ i, a = o + i → ∃ j, b = o + j ∧ Above hs i j := by
  induction hp with
  | refl => exact fun i e => ⟨i, e, .refl i⟩
  | step h1 h0 ht _ ih =>
    intro i e
    subst e
    have hi := head_of_heads hh h1
    have := hpos _ (List.mem_of_getElem? hi)
    obtain ⟨j, e, hj⟩ := ih _ (headTarget_of_pos (by omega) ht)
    refine ⟨j, e, .step ?_ hj⟩
    rw [hi]; congr 1; omega

theorem meets_of_meetIn (hpos : ∀ h ∈ hs, 0 ≤ h) {b k a : Nat} (hm : MeetIn heads o (Passed heads o b) k a) :
    ∀ i, a = o + i → Meets hs b k i := by
  induction hm with
  | root h =>
    rintro i rfl
    exact .root (head_of_heads hh h)
  | seen h =>
    rintro i rfl
    obtain ⟨j, hj, hp⟩ := h
    obtain ⟨i', e, ha⟩ := above_of_pathTo hh hpos hp j rfl
    have : i' = i := by omega
    subst this
    exact .seen hj ha
  | step h1 h0 ht _ ih =>
    rintro i rfl
    have hi := head_of_heads hh h1
    have := hpos _ (List.mem_of_getElem? hi)
    refine .step ?_ (ih _ (headTarget_of_pos (by omega) ht))
    rw [hi]; congr 1; omega

include hlen

theorem target_of_head (hle : ∀ h ∈ hs, h ≤ hs.length) {i h : Nat} (h1 : hs[i]? = some ((h : Int) + 1)) :
    heads[o + i]? = some (.ok ((h : Int) + 1)) ∧ headTarget o heads.length ((h : Int) + 1) = some (o + h) := by
  refine ⟨by rw [hh, h1]; rfl, ?_⟩
  have := hle _ (List.mem_of_getElem? h1)
  rw [headTarget_pos (by omega) (by omega)]
  congr 2

theorem pathTo_of_above (hle : ∀ h ∈ hs, h ≤ hs.length) {i j : Nat} (ha : Above hs i j) :
    PathTo heads o (o + i) (o + j) := by
  induction ha with
  | refl => exact .refl _
  | step h1 _ ih =>
    obtain ⟨q1, q2⟩ := target_of_head hlen hh hle h1
    exact .step q1 (by omega) q2 ih

theorem meetIn_of_meets (hle : ∀ h ∈ hs, h ≤ hs.length) {b k i : Nat} (hm : Meets hs b k i) :
    MeetIn heads o (Passed heads o b) k (o + i) := by
  induction hm with
  | root h => exact .root (by rw [hh, h]; rfl)
  | seen hj ha => exact .seen ⟨_, hj, pathTo_of_above hlen hh hle ha⟩
  | step h1 _ ih =>
    obtain ⟨q1, q2⟩ := target_of_head hlen hh hle h1
    exact .step q1 (by omega) q2 ih

end

theorem headsOf_get {rows : List (List Str)} {hs : List Int} (h : HeadsOf rows hs) (i : Nat) :
    (rows[i]?).map (fun r => pyInt (colOf r colHEAD)) = (hs[i]?).map .ok := by
  induction h generalizing i with
  | nil => rfl
  | cons h _ ih =>
    cases i with
    | zero => exact congrArg some h
    | succ i => simpa using ih i

theorem headsOf_unique {rows : List (List Str)} {a b : List Int} (h1 : HeadsOf rows a) (h2 : HeadsOf rows b) : a = b := by
  induction h1 generalizing b with
  | nil => cases h2; rfl
  | cons h _ ih =>
    cases h2 with
    | cons h' t =>
      rw [h] at h'; injection h' with h'
      rw [h', ih t]

section
variable {sents : List (List UdToken)} {st : LState}

theorem open_words (us : List UdToken) :
    (addToks (startSentence st) us).ud.words = st.ud.words ++ (tokWords st.index us).map wordOf := by
  rw [addToks_eq]; rfl

theorem pinv_open (hc : ClosedState sents st) (us : List UdToken) :
    PInv ((st.ud.words ++ (tokWords st.index us).map wordOf).map UDWord.head) st.ud.words.length
      (st.ud.words ++ (tokWords st.index us).map wordOf) := by
  have hopen : ∀ (i : Nat) (w : UDWord), (st.ud.words ++ (tokWords st.index us).map wordOf)[i]? = some w →
      st.ud.words.length ≤ i → w.parent = .none := by
    intro i w hw hi
    rw [List.getElem?_append_right hi, List.getElem?_map, Option.map_eq_some_iff] at hw
    obtain ⟨p, _, rfl⟩ := hw
    rfl
  refine ⟨rfl, ?_, ?_⟩
  · intro i w p hw hp
    by_cases hi : i < st.ud.words.length
    · exact ⟨.closed hi, fun h => by omega⟩
    · rw [hopen i w hw (by omega)] at hp; cases hp
  · intro i w hw hi
    rw [List.getElem?_append_left hi] at hw
    exact hc.closed w (List.mem_of_getElem? hw)

theorem heads_open (us : List UdToken) (i : Nat) :
    ((st.ud.words ++ (tokWords st.index us).map wordOf).map UDWord.head)[st.ud.words.length + i]? =
      ((rowsOf us)[i]?).map (fun r => pyInt (colOf r colHEAD)) := by
  rw [List.map_append, List.getElem?_append_right (by simp), ← rowsOf_eq st.index us]
  simp only [List.length_map, Nat.add_sub_cancel_left, List.getElem?_map, Option.map_map]
  rfl

theorem rowsOf_length (off : Nat) (us : List UdToken) : (tokWords off us).length = (rowsOf us).length := by
  rw [← rowsOf_eq off us, List.length_map]

theorem words_open (us : List UdToken) (j p : Nat) (w : UDWord) (hj : st.ud.words.length ≤ j)
    (hw : (st.ud.words ++ (tokWords st.index us).map wordOf)[j]? = some w) : w.parent ≠ .word p := by
  rw [List.getElem?_append_right hj, List.getElem?_map, Option.map_eq_some_iff] at hw
  obtain ⟨q, _, rfl⟩ := hw
  simp [wordOf, mkWord]

theorem blank_complete (hc : ClosedState sents st) {us : List UdToken} {hs : List Int} {d : Nat}
    (hh : HeadsOf (rowsOf us) hs) (ht : HeadTree hs) (hd : Shallow d hs) :
    ∃ words, forM' (processWord st.ud.words.length d) (addToks (startSentence st) us).ud.words
      ((List.range ((addToks (startSentence st) us).ud.words.length - st.ud.words.length)).map
        (st.ud.words.length + ·)) = .ok words := by
  rw [open_words]
  have hl := hh.length_eq
  have e1 : ((st.ud.words ++ (tokWords st.index us).map wordOf).map UDWord.head).length =
      st.ud.words.length + hs.length := by simp [rowsOf_length, hl]
  have e2 : ∀ j : Nat, ((st.ud.words ++ (tokWords st.index us).map wordOf).map UDWord.head)[st.ud.words.length + j]? =
      (hs[j]?).map .ok := by
    intro j
    rw [heads_open, headsOf_get hh]
  refine sent_loop_complete (pinv_open hc us) (by simp) ?_
    (target_ge e2 (fun h hm => (ht.range h hm).1)) (fun j p w hj hw => words_open us j p w hj hw) ?_ ?_
  · intro w hw
    rw [List.mem_append] at hw
    rcases hw with hw | hw
    · rcases hc.closed w hw with ⟨p, h⟩ | ⟨h, _⟩ <;> simp [h]
    · obtain ⟨p, _, rfl⟩ := List.mem_map.1 hw
      simp [wordOf, mkWord]
  · intro i hi
    simp only [List.length_append, List.length_map, rowsOf_length] at hi
    obtain ⟨k, hcl⟩ := ht.2 i (by omega)
    exact ⟨k, reachIn_of_climbs e1 e2 hcl⟩
  · intro i hi
    simp only [List.length_append, List.length_map, rowsOf_length] at hi
    obtain ⟨k, hk, hm⟩ := hd i (by omega)
    exact ⟨k, hk, meetIn_of_meets e1 e2 (fun h hm => (ht.range h hm).2) hm⟩

theorem blank_recursion (hc : ClosedState sents st) {us : List UdToken} {hs : List Int} {d : Nat}
    (hh : HeadsOf (rowsOf us) hs) (ht : HeadTree hs) :
    (∃ words, forM' (processWord st.ud.words.length d) (addToks (startSentence st) us).ud.words
      ((List.range ((addToks (startSentence st) us).ud.words.length - st.ud.words.length)).map
        (st.ud.words.length + ·)) = .ok words) ∨
    forM' (processWord st.ud.words.length d) (addToks (startSentence st) us).ud.words
      ((List.range ((addToks (startSentence st) us).ud.words.length - st.ud.words.length)).map
        (st.ud.words.length + ·)) = .error .recursion := by
  rw [open_words]
  have hl := hh.length_eq
  refine sent_loop_recursion (pinv_open hc us) (by simp) ?_ ?_
  · intro w hw
    rw [List.mem_append] at hw
    rcases hw with hw | hw
    · rcases hc.closed w hw with ⟨p, h⟩ | ⟨h, _⟩ <;> simp [h]
    · obtain ⟨p, _, rfl⟩ := List.mem_map.1 hw
      simp [wordOf, mkWord]
  · intro i hi
    simp only [List.length_append, List.length_map, rowsOf_length] at hi
    obtain ⟨k, hcl⟩ := ht.2 i (by omega)
    refine ⟨k, reachIn_of_climbs (hs := hs) ?_ ?_ hcl⟩
    · simp [rowsOf_length, hl]
    · intro j
      rw [heads_open, headsOf_get hh]

theorem blank_shallow (hc : ClosedState sents st) {us : List UdToken} {hs : List Int} {d : Nat}
    (hh : HeadsOf (rowsOf us) hs) (hpos : ∀ h ∈ hs, 0 ≤ h) {words : List UDWord}
    (h : forM' (processWord st.ud.words.length d) (addToks (startSentence st) us).ud.words
      ((List.range ((addToks (startSentence st) us).ud.words.length - st.ud.words.length)).map
        (st.ud.words.length + ·)) = .ok words) : Shallow d hs := by
  rw [open_words] at h
  have hl := hh.length_eq
  have e2 : ∀ j : Nat, ((st.ud.words ++ (tokWords st.index us).map wordOf).map UDWord.head)[st.ud.words.length + j]? =
      (hs[j]?).map .ok := by
    intro j
    rw [heads_open, headsOf_get hh]
  intro i hi
  obtain ⟨k, hk, hm⟩ := sent_loop_meets (pinv_open hc us) (target_ge e2 hpos)
    (fun j p w hj hw => words_open us j p w hj hw) h i (by simp [rowsOf_length, hl]; omega)
  exact ⟨k, hk, meets_of_meetIn e2 hpos hm i rfl⟩

theorem linkOf_zero {o : Nat} {r : List Str} {l : Link} {h : Int} (hl : LinkOf o r l)
    (hh : pyInt (colOf r colHEAD) = .ok h) : l = .none ↔ h = 0 := by
  obtain ⟨h', e, h1, h2, h3⟩ := hl
  rw [hh] at e
  injection e with e
  subst e
  constructor
  · intro hn
    by_contra hne
    by_cases hp : 0 < h
    · rw [h2 hp] at hn; cases hn
    · obtain ⟨p, hp⟩ := h3 (by omega)
      rw [hp] at hn; cases hn
  · exact h1

theorem skel_map {o : Nat} {a b : List UDWord} (h : PExt o a b) :
    b.map (fun w => (w.span, w.multi, w.columns)) = a.map (fun w => (w.span, w.multi, w.columns)) := by
  obtain ⟨h, -⟩ := h
  induction h with
  | nil => rfl
  | cons h _ ih => simp [ih, h.1.span, h.1.multi, h.1.columns]

theorem headTarget_lt {o n p : Nat} {h : Int} (hh : headTarget o n h = some p) : p < n := by
  unfold headTarget at hh
  simp only at hh
  split at hh <;> split at hh
  all_goals first
    | (injection hh with hh; omega)
    | cases hh

theorem blank_sound (hc : ClosedState sents st) {us : List UdToken} {d : Nat} {words : List UDWord}
    (h : forM' (processWord st.ud.words.length d) (addToks (startSentence st) us).ud.words
      ((List.range ((addToks (startSentence st) us).ud.words.length - st.ud.words.length)).map
        (st.ud.words.length + ·)) = .ok words) :
    ∃ ws, words = st.ud.words ++ ws ∧
      words.map (fun w => (w.span, w.multi, w.columns)) =
        st.ud.words.map (fun w => (w.span, w.multi, w.columns)) ++ tokWords st.index us ∧
      (∀ w ∈ ws, ClosedWord w) ∧ (∀ w ∈ ws, ∀ p, w.parent = .word p → p < words.length) ∧
      List.Forall₂ (LinkOf st.ud.words.length) (rowsOf us) (ws.map UDWord.parent) ∧
      ∃ hs, HeadsOf (rowsOf us) hs ∧
        ((∀ h ∈ hs, 0 ≤ h) → ∀ i < hs.length, ∃ k, Climbs hs k i) := by
  rw [open_words] at h
  have hn : (st.ud.words ++ (tokWords st.index us).map wordOf).length - st.ud.words.length = (rowsOf us).length := by
    simp [rowsOf_length]
  rw [hn] at h
  have hs := sent_loop_sound (pinv_open hc us) h
  have hlen := hs.ext.length
  have hlen' : words.length = st.ud.words.length + (rowsOf us).length := by
    rw [hlen]; simp [rowsOf_length]
  have hsplit : words = st.ud.words ++ words.drop st.ud.words.length := by
    conv_lhs => rw [← List.take_append_drop st.ud.words.length words]
    rw [hs.ext.2, List.take_left']
    rfl
  have hlink : List.Forall₂ (LinkOf st.ud.words.length) (rowsOf us)
      ((words.drop st.ud.words.length).map UDWord.parent) := by
    rw [List.forall₂_iff_get]
    refine ⟨by simp [hlen'], ?_⟩
    intro i h1 h2
    simp only [List.get_eq_getElem, List.getElem_map, List.getElem_drop]
    obtain ⟨_, w', hw', hd⟩ := hs.done i h1
    have e : words[st.ud.words.length + i] = w' := by
      rw [List.getElem?_eq_getElem (by omega)] at hw'
      exact Option.some.inj hw'
    rw [e]
    have hhead : ((st.ud.words ++ (tokWords st.index us).map wordOf).map UDWord.head)[st.ud.words.length + i]? =
        some (w'.head) := by
      rw [← hs.inv.heads_eq, List.getElem?_map, hw']
      rfl
    have hrow : pyInt (colOf (rowsOf us)[i] colHEAD) = w'.head := by
      rw [heads_open, List.getElem?_eq_getElem h1] at hhead
      exact Option.some.inj hhead
    rcases hd with ⟨p, hp⟩ | ⟨hp, h0⟩
    · obtain ⟨_, hl⟩ := hs.inv.link _ _ _ hw' hp
      obtain ⟨hd, q1, q2, q3, q4⟩ := hl (by omega)
      rw [hhead] at q1
      refine ⟨hd, by rw [hrow]; exact Option.some.inj q1, fun e => absurd e q2, ?_, fun _ => ⟨p, hp⟩⟩
      intro hpos
      rw [headTarget_pos hpos q3] at q4
      rw [hp, ← Option.some.inj q4]
    · exact ⟨0, by rw [hrow, h0], fun _ => hp, fun h => absurd h (by omega), fun h => absurd h (by omega)⟩
  refine ⟨words.drop st.ud.words.length, hsplit, ?_, ?_, ?_, hlink, ?_⟩
  · rw [skel_map hs.ext, List.map_append, List.map_map]
    congr 1
    exact List.map_id'' (fun _ => rfl) _
  · intro w hw
    obtain ⟨i, hi, e⟩ := List.getElem_of_mem hw
    rw [List.getElem_drop] at e
    rw [List.length_drop] at hi
    obtain ⟨_, w', hw', hd⟩ := hs.done i (by omega)
    rw [List.getElem?_eq_getElem (by omega), e] at hw'
    cases hw'
    exact hd
  · intro w hw p hp
    obtain ⟨i, hi, e⟩ := List.getElem_of_mem hw
    rw [List.getElem_drop] at e
    rw [List.length_drop] at hi
    obtain ⟨_, hl⟩ := hs.inv.link (st.ud.words.length + i) w p (by rw [List.getElem?_eq_getElem (by omega), e]) hp
    obtain ⟨_, _, _, _, ht⟩ := hl (by omega)
    have := headTarget_lt ht
    rw [List.length_map] at this
    omega
  · have hex : ∀ r ∈ rowsOf us, ∃ h : Int, pyInt (colOf r colHEAD) = .ok h := by
      intro r hr
      obtain ⟨i, hi, e⟩ := List.getElem_of_mem hr
      rw [List.forall₂_iff_get] at hlink
      obtain ⟨h, hh, _⟩ := hlink.2 i hi (by rw [← hlink.1]; exact hi)
      rw [List.get_eq_getElem, e] at hh
      exact ⟨h, hh⟩
    obtain ⟨hs', hh⟩ := forall₂_exists hex
    refine ⟨hs', hh, ?_⟩
    intro hpos i hi
    have hl := hh.length_eq
    obtain ⟨hr, _⟩ := hs.done i (by omega)
    exact climbs_of_reach (by simp [rowsOf_length, hl]) (fun j => by rw [heads_open, headsOf_get hh]) hpos hr i rfl

theorem modify_last {α : Type} (l : List α) (x : α) (f : α → α) :
    (l ++ [x]).modify ((l ++ [x]).length - 1) f = l ++ [f x] := by
  induction l with
  | nil => rfl
  | cons a l ih =>
    simp only [List.cons_append, List.length_cons, Nat.add_sub_cancel] at ih ⊢
    rw [show (l ++ [x]).length = (l ++ [x]).length - 1 + 1 by simp, List.modify_succ_cons, ih]

theorem loadBlank_closed (hc : ClosedState sents st) {us : List UdToken} {d : Nat} {st' : LState}
    (h : loadBlank d (addToks (startSentence st) us) st.ud.words.length = .ok st') :
    ClosedState (sents ++ [us]) st' ∧
      ∃ hs, HeadsOf (rowsOf us) hs ∧ (∃! i : Nat, hs[i]? = some 0) ∧ ((∀ h ∈ hs, 0 ≤ h) → HeadTree hs) := by
  rw [loadBlank] at h
  split at h
  · cases h
  · rename_i words hw
    split at h
    · cases h
    · rename_i hroot
      injection h with h
      subst h
      obtain ⟨ws, e, hsk, hcl, hbd, hlink, hs, hh, htree⟩ := blank_sound hc hw
      have hwords : st.ud.words.length = (rowsOf sents.flatten).length := by
        rw [← rowsOf_eq 0, ← hc.of.words]; simp
      have huniq : ∃! i : Nat, hs[i]? = some 0 := by
        rw [e, List.drop_left' rfl] at hroot
        have h1 := filter_one_iff.1 (not_not.1 hroot)
        have key : ∀ i : Nat, (∃ a, ws[i]? = some a ∧ decide (a.parent = Link.none) = true) ↔ hs[i]? = some 0 := by
          intro i
          have hl := hlink.length_eq
          have hl2 := hh.length_eq
          simp only [List.length_map] at hl
          by_cases hi : i < ws.length
          · rw [List.forall₂_iff_get] at hlink
            have hh' := hh
            unfold HeadsOf at hh'
            rw [List.forall₂_iff_get] at hh'
            have q1 := hlink.2 i (by omega) (by simpa using hi)
            have q2 := hh'.2 i (by omega) (by omega)
            simp only [List.get_eq_getElem, List.getElem_map] at q1 q2
            rw [List.getElem?_eq_getElem hi, List.getElem?_eq_getElem (by omega)]
            have := linkOf_zero q1 q2
            simp only [Option.some.injEq, exists_eq_left', decide_eq_true_eq]
            exact this
          · rw [List.getElem?_eq_none (by omega), List.getElem?_eq_none (by omega)]
            simp
        obtain ⟨i, h2, h3⟩ := h1
        exact ⟨i, (key i).1 h2, fun j hj => h3 j ((key j).2 hj)⟩
      refine ⟨⟨?_, ⟨?_, ?_, ?_, ?_, ?_, ?_⟩, ?_, rfl, ?_⟩, hs, hh, huniq, fun hp => ⟨huniq, htree hp⟩⟩
      · simp only [addToks_eq, startSentence, List.flatten_append, udLength_append, hc.index]
        simp
      · simp only [addToks_eq, startSentence, hc.of.characters]
        simp
      · simp only [addToks_eq, startSentence, hc.of.tokens, List.flatten_append, tokSpans_append, hc.index]
        simp
      · simp only [hsk, List.flatten_append, tokWords_append, hc.of.words, hc.index]
        simp
      · simp only [addToks_eq, startSentence]
        rw [modify_last, hc.of.sentences, sentSpans_append]
        simp [hc.index, sentSpans]
      · simp only [e, List.map_append]
        refine hc.of.links.append ⟨ws.map UDWord.parent, [], by simp, ?_, rfl⟩
        rw [Nat.zero_add, ← hwords]
        exact hlink
      · intro w hw' p hp
        simp only [e, List.mem_append] at hw' ⊢
        rcases hw' with hw' | hw'
        · have := hc.of.bound w hw' p hp
          rw [List.length_append]; omega
        · rw [← e]; exact hbd w hw' p hp
      · simp only [addToks_eq, startSentence, hc.pending]
      · intro w hw'
        simp only [e, List.mem_append] at hw'
        rcases hw' with hw' | hw'
        · exact hc.closed w hw'
        · exact hcl w hw'

theorem loadBlank_ok (hc : ClosedState sents st) {us : List UdToken} {d : Nat} {hs : List Int}
    (hh : HeadsOf (rowsOf us) hs) (ht : HeadTree hs) (hd : Shallow d hs) :
    ∃ st', loadBlank d (addToks (startSentence st) us) st.ud.words.length = .ok st' := by
  obtain ⟨words, hw⟩ := blank_complete hc hh ht hd
  rw [loadBlank, hw]
  simp only
  obtain ⟨ws, e, -, -, -, hlink, -⟩ := blank_sound hc hw
  rw [if_neg]
  · exact ⟨_, rfl⟩
  · rw [not_not, e, List.drop_left' rfl]
    refine filter_one_iff.2 ?_
    obtain ⟨i, h2, h3⟩ := ht.1
    have key : ∀ i : Nat, (∃ a, ws[i]? = some a ∧ decide (a.parent = Link.none) = true) ↔ hs[i]? = some 0 := by
      intro i
      have hl := hlink.length_eq
      have hl2 := hh.length_eq
      simp only [List.length_map] at hl
      by_cases hi : i < ws.length
      · rw [List.forall₂_iff_get] at hlink
        have hh' := hh
        unfold HeadsOf at hh'
        rw [List.forall₂_iff_get] at hh'
        have q1 := hlink.2 i (by omega) (by simpa using hi)
        have q2 := hh'.2 i (by omega) (by omega)
        simp only [List.get_eq_getElem, List.getElem_map] at q1 q2
        rw [List.getElem?_eq_getElem hi, List.getElem?_eq_getElem (by omega)]
        have := linkOf_zero q1 q2
        simp only [Option.some.injEq, exists_eq_left', decide_eq_true_eq]
        exact this
      · rw [List.getElem?_eq_none (by omega), List.getElem?_eq_none (by omega)]
        simp
    exact ⟨i, (key i).2 h2, fun j hj => h3 j ((key j).1 hj)⟩

end

/-! ### Files -/

theorem comments_run {d : Nat} {st : LState} (h1 : st.pending = 0) (h2 : st.sentStart = none) {cs : List Str}
    (hcs : ∀ l ∈ cs, l.head? = some '#') (rest : List Str) : udRun d st (cs ++ rest) = udRun d st rest := by
  induction cs with
  | nil => rfl
  | cons c cs ih =>
    rw [List.cons_append, udRun_cons, loadStep, if_neg (by omega), h2]
    simp only [hcs c (by simp), if_true]
    exact ih (fun l hl => hcs l (by simp [hl]))

/-- The first line of a sentence. -/
theorem start_run {d : Nat} {st : LState} (h1 : st.pending = 0) (h2 : st.sentStart = none) {ls : List Str}
    (hne : ls ≠ []) (hls : ∀ l, ls.head? = some l → l.head? ≠ some '#') :
    udRun d st ls = udRun d (startSentence st) ls := by
  cases ls with
  | nil => exact absurd rfl hne
  | cons l ls =>
    rw [udRun_cons, udRun_cons, loadStep_in (st := startSentence st) (s := st.ud.words.length) h1 rfl, loadStep,
      if_neg (by omega), h2]
    simp only [hls l rfl, if_false]

theorem blank_run {d : Nat} {st : LState} {s : Nat} (h1 : st.pending = 0) (h2 : st.sentStart = some s) (rest : List Str) :
    udRun d st ([] :: rest) = match loadBlank d st s with
      | .error e => .error e
      | .ok st' => udRun d st' rest := by
  rw [udRun_cons, loadStep_in h1 h2, loadLine]
  rfl

theorem sentence_run {d : Nat} {st : LState} (h1 : st.pending = 0) (h2 : st.sentStart = none) {cs body rest : List Str}
    {us : List UdToken} (hcs : ∀ l ∈ cs, l.head? = some '#') (hb : ∀ l, body.head? = some l → l.head? ≠ some '#')
    (hu : UdLines 0 body us) :
    udRun d st (cs ++ (body ++ [] :: rest)) = match loadBlank d (addToks (startSentence st) us) st.ud.words.length with
      | .error e => .error e
      | .ok st' => udRun d st' rest := by
  rw [comments_run h1 h2 hcs, start_run h1 h2 (by simp), body_run d hu (startSentence st) st.ud.words.length h1 rfl rfl,
    blank_run (s := st.ud.words.length)]
  · rw [(addToks_fields _ _).2.1]; exact h1
  · rw [(addToks_fields _ _).1]; rfl
  · intro l hl
    cases body with
    | nil => simp only [List.nil_append, List.head?_cons, Option.some.injEq] at hl; subst hl; simp
    | cons b body => exact hb l hl

/-- The HEADs of a sentence: every row has one, exactly one is 0, and unless some are negative they form a
tree. -/
def SentOk (us : List UdToken) : Prop :=
  ∃ hs, HeadsOf (rowsOf us) hs ∧ (∃! i : Nat, hs[i]? = some 0) ∧ ((∀ h ∈ hs, 0 ≤ h) → HeadTree hs)

theorem file_sound {d : Nat} {ud : UD} : ∀ (n : Nat) (ls : List Str), ls.length ≤ n →
    ∀ (sents : List (List UdToken)) (st : LState), ClosedState sents st → udRun d st ls = .ok ud →
    ∃ sents', UdSents ls sents' ∧ UdOf (sents ++ sents') ud ∧ ∀ us ∈ sents', SentOk us := by
  intro n
  induction n with
  | zero =>
    intro ls hn sents st hc h
    have : ls = [] := List.length_eq_zero_iff.1 (by omega)
    subst this
    refine ⟨[], .nil (by simp), ?_, by simp⟩
    rw [udRun_nil, loadEnd, if_neg (by simp [hc.pending]), hc.start] at h
    simp only [Option.isSome_none, Bool.false_eq_true, if_false] at h
    injection h with h
    subst h
    simpa using hc.of
  | succ n ih =>
    intro ls hn sents st hc h
    have hspan := List.takeWhile_append_dropWhile (p := fun l : Str => l.head? == some '#') (l := ls)
    have hcs : ∀ l ∈ ls.takeWhile (fun l : Str => l.head? == some '#'), l.head? = some '#' := by
      intro l hl
      have := List.all_takeWhile (l := ls) (p := fun l : Str => l.head? == some '#')
      rw [List.all_eq_true] at this
      simpa using this l hl
    have hhead : ∀ l, (ls.dropWhile (fun l : Str => l.head? == some '#')).head? = some l → l.head? ≠ some '#' := by
      intro l hl he
      have := List.head?_dropWhile_not (fun l : Str => l.head? == some '#') ls
      rw [hl] at this
      simp [he] at this
    generalize ls.takeWhile (fun l : Str => l.head? == some '#') = cs at hspan hcs
    generalize ls.dropWhile (fun l : Str => l.head? == some '#') = ls' at hspan hhead
    subst hspan
    by_cases hls : ls' = []
    · subst hls
      rw [comments_run hc.pending hc.start hcs] at h
      refine ⟨[], by simpa using UdSents.nil hcs, ?_, by simp⟩
      rw [udRun_nil, loadEnd, if_neg (by simp [hc.pending]), hc.start] at h
      simp only [Option.isSome_none, Bool.false_eq_true, if_false] at h
      injection h with h
      subst h
      simpa using hc.of
    · have h' := h
      rw [comments_run hc.pending hc.start hcs, start_run hc.pending hc.start hls hhead] at h
      obtain ⟨body, us, rest, e, hu⟩ := body_inv _ ls' (Nat.le_refl _) (startSentence st) st.ud.words.length 0
        hc.pending rfl rfl h
      subst e
      have hb : ∀ l, body.head? = some l → l.head? ≠ some '#' := by
        intro l hl
        cases body with
        | nil => simp at hl
        | cons b body => exact hhead l hl
      rw [sentence_run hc.pending hc.start hcs hb hu] at h'
      split at h'
      · cases h'
      · rename_i st' hst
        obtain ⟨hc', hok⟩ := loadBlank_closed hc hst
        obtain ⟨sents', q1, q2, q3⟩ := ih rest (by simp at hn; omega) _ st' hc' h'
        refine ⟨us :: sents', .cons hcs hb hu q1, by simpa using q2, ?_⟩
        intro u hu'
        rcases List.mem_cons.1 hu' with rfl | hu'
        · exact hok
        · exact q3 u hu'

theorem file_complete {d : Nat} {ls : List Str} {sents' : List (List UdToken)} (hu : UdSents ls sents')
    (hok : ∀ us ∈ sents', ∃ hs, HeadsOf (rowsOf us) hs ∧ HeadTree hs ∧ Shallow d hs) :
    ∀ (sents : List (List UdToken)) (st : LState), ClosedState sents st →
      ∃ ud, udRun d st ls = .ok ud ∧ UdOf (sents ++ sents') ud := by
  induction hu with
  | nil hcs =>
    intro sents st hc
    rename_i cs
    have := comments_run (d := d) hc.pending hc.start hcs []
    rw [List.append_nil] at this
    rw [this, udRun_nil, loadEnd, if_neg (by simp [hc.pending]), hc.start]
    exact ⟨_, rfl, by simpa using hc.of⟩
  | cons hcs hb hl _ ih =>
    intro sents st hc
    rw [sentence_run hc.pending hc.start hcs hb hl]
    obtain ⟨hs, h1, h2, h3⟩ := hok _ List.mem_cons_self
    obtain ⟨st', hst⟩ := loadBlank_ok hc h1 h2 h3
    rw [hst]
    obtain ⟨ud, q1, q2⟩ := ih (fun us hus => hok us (by simp [hus])) _ st' (loadBlank_closed hc hst).1
    exact ⟨ud, q1, by simpa using q2⟩

theorem file_shallow {d : Nat} {ls : List Str} {sents' : List (List UdToken)} (hu : UdSents ls sents')
    (hok : ∀ us ∈ sents', ∃ hs, HeadsOf (rowsOf us) hs ∧ ∀ h ∈ hs, 0 ≤ h) :
    ∀ (sents : List (List UdToken)) (st : LState), ClosedState sents st → ∀ ud, udRun d st ls = .ok ud →
      UdOf (sents ++ sents') ud ∧
      ∀ us ∈ sents', ∃ hs, HeadsOf (rowsOf us) hs ∧ HeadTree hs ∧ Shallow d hs := by
  induction hu with
  | nil hcs =>
    intro sents st hc ud h
    have := comments_run (d := d) hc.pending hc.start hcs []
    rw [List.append_nil] at this
    rw [this, udRun_nil, loadEnd, if_neg (by simp [hc.pending]), hc.start] at h
    simp only [Option.isSome_none, Bool.false_eq_true, if_false] at h
    injection h with h
    subst h
    exact ⟨by simpa using hc.of, by simp⟩
  | cons hcs hb hl _ ih =>
    intro sents st hc ud h
    rw [sentence_run hc.pending hc.start hcs hb hl] at h
    split at h
    · cases h
    · rename_i st' hst
      obtain ⟨hc', hok'⟩ := loadBlank_closed hc hst
      obtain ⟨q1, q2⟩ := ih (fun us hus => hok us (by simp [hus])) _ st' hc' ud h
      refine ⟨by simpa using q1, ?_⟩
      intro u hu
      rcases List.mem_cons.1 hu with rfl | hu
      · obtain ⟨hs, a1, a2⟩ := hok u (by simp)
        obtain ⟨hs', b1, b2, b3⟩ := hok'
        have e := headsOf_unique a1 b1
        subst e
        refine ⟨hs, a1, b3 a2, ?_⟩
        unfold loadBlank at hst
        split at hst
        · cases hst
        · rename_i words hw
          exact blank_shallow hc a1 a2 hw
      · exact q2 u hu

theorem loadBlank_recursion {sents : List (List UdToken)} {st : LState} (hc : ClosedState sents st) {us : List UdToken} {d : Nat} {hs : List Int}
    (hh : HeadsOf (rowsOf us) hs) (ht : HeadTree hs) :
    (∃ st', loadBlank d (addToks (startSentence st) us) st.ud.words.length = .ok st') ∨
      loadBlank d (addToks (startSentence st) us) st.ud.words.length = .error .recursion := by
  by_cases hd : Shallow d hs
  · exact .inl (loadBlank_ok hc hh ht hd)
  · right
    rcases blank_recursion (d := d) hc hh ht with ⟨words, hw⟩ | he
    · exact absurd (blank_shallow hc hh (fun h hm => (ht.range h hm).1) hw) hd
    · rw [loadBlank, he]

theorem file_recursion {d : Nat} {ls : List Str} {sents' : List (List UdToken)} (hu : UdSents ls sents')
    (hok : ∀ us ∈ sents', ∃ hs, HeadsOf (rowsOf us) hs ∧ HeadTree hs) :
    ∀ (sents : List (List UdToken)) (st : LState), ClosedState sents st →
      (∃ ud, udRun d st ls = .ok ud) ∨ udRun d st ls = .error .recursion := by
  induction hu with
  | nil hcs =>
    intro sents st hc
    have := comments_run (d := d) hc.pending hc.start hcs []
    rw [List.append_nil] at this
    rw [this, udRun_nil, loadEnd, if_neg (by simp [hc.pending]), hc.start]
    exact .inl ⟨_, rfl⟩
  | cons hcs hb hl _ ih =>
    intro sents st hc
    rw [sentence_run hc.pending hc.start hcs hb hl]
    obtain ⟨hs, h1, h2⟩ := hok _ List.mem_cons_self
    rcases loadBlank_recursion (d := d) hc h1 h2 with ⟨st', hst⟩ | he
    · rw [hst]
      exact ih (fun us hus => hok us (by simp [hus])) _ st' (loadBlank_closed hc hst).1
    · rw [he]
      exact .inr rfl

theorem closed_start : ClosedState [] {} where
  index := rfl
  of := ⟨rfl, rfl, rfl, rfl, rfl, by simp⟩
  pending := rfl
  start := rfl
  closed := by simp

end Verif
