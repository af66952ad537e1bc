import Verif.Model.Training
import Verif.Spec.Training
import Verif.Proofs.PyLemmas

namespace Verif

variable {α β : Type}

theorem swap_length (l : List α) (i j : Nat) : (swap l i j).length = l.length := by
  unfold swap; split <;> simp

theorem swap_map (f : α → β) (l : List α) (i j : Nat) :
    swap (l.map f) i j = (swap l i j).map f := by
  unfold swap
  simp only [List.getElem?_map]
  cases l[i]? <;> cases l[j]? <;> simp [List.map_set]

theorem swap_perm (l : List α) (i j : Nat) : (swap l i j).Perm l := by
  unfold swap
  split
  · rename_i a b h1 h2
    obtain ⟨hi, rfl⟩ := List.getElem?_eq_some_iff.mp h1
    obtain ⟨hj, rfl⟩ := List.getElem?_eq_some_iff.mp h2
    exact List.set_set_perm hi hj
  · exact .refl _

theorem shuffleFrom_perm (rnd : Nat → Nat) (i k : Nat) (l : List α) :
    (shuffleFrom rnd i k l).Perm l := by
  induction i generalizing k l with
  | zero => exact .refl _
  | succ i ih => exact (ih _ _).trans (swap_perm _ _ _)

theorem shuffleFrom_map (f : α → β) (rnd : Nat → Nat) (i k : Nat) (l : List α) :
    shuffleFrom rnd i k (l.map f) = (shuffleFrom rnd i k l).map f := by
  induction i generalizing k l with
  | zero => rfl
  | succ i ih => simp only [shuffleFrom, swap_map, ih]

theorem shuffle_perm (rnd : Nat → Nat) (k : Nat) (l : List α) : (shuffle rnd k l).Perm l :=
  shuffleFrom_perm _ _ _ _

theorem shuffle_map (f : α → β) (rnd : Nat → Nat) (k : Nat) (l : List α) :
    shuffle rnd k (l.map f) = (shuffle rnd k l).map f := by
  unfold shuffle; rw [List.length_map, shuffleFrom_map]

theorem randrange_ok {rnd : Nat → Nat} {k : Nat} {lo hi n : Int} (h : randrange rnd k lo hi = .ok n) :
    lo ≤ n ∧ n < hi := by
  unfold randrange at h
  split at h
  · cases h
  · injection h with h
    have := Nat.mod_lt (rnd k) (show 0 < (hi - lo).toNat by omega)
    omega

theorem randrange_isOk (rnd : Nat → Nat) (k : Nat) {lo hi : Int} (h : lo < hi) :
    ∃ n, randrange rnd k lo hi = .ok n := by
  unfold randrange
  rw [if_neg (by omega)]
  exact ⟨_, rfl⟩

/-- Splitting succeeds, and says what the batches are. -/
theorem splitLoop_spec (rnd : Nat → Nat) {B : Nat} (hB : 0 < B) (fuel k : Nat) (items : List α)
    (hf : items.length < fuel) :
    ∃ bs bs', splitLoop rnd B fuel k items = .ok bs' ∧ bs.flatten = items ∧
      List.Forall₂ List.Perm bs' bs ∧ BatchSizes B bs := by
  induction fuel generalizing k items with
  | zero => omega
  | succ fuel ih =>
    obtain ⟨n, hn⟩ := randrange_isOk rnd k (lo := (B : Int).tdiv 2 + 1) (hi := (B : Int) + 1) (by
      rw [Int.tdiv_eq_ediv_of_nonneg (by omega)]; omega)
    have hb := randrange_ok hn
    rw [Int.tdiv_eq_ediv_of_nonneg (by omega)] at hb
    obtain ⟨m, rfl⟩ : ∃ m : Nat, n = m := ⟨n.toNat, by omega⟩
    unfold splitLoop
    rw [hn]
    simp only [Int.toNat_natCast]
    rw [if_neg (by omega)]
    by_cases he : items = []
    · subst he
      exact ⟨[], [], by simp, rfl, .nil, by simp [BatchSizes]⟩
    have hne : items.take m ≠ [] := by
      intro h
      have := congrArg List.length h
      have h2 := List.length_pos_iff.mpr he
      simp only [List.length_take, List.length_nil] at this
      omega
    rw [if_neg (by simpa using hne)]
    obtain ⟨bs, bs', h1, h2, h3, h4⟩ := ih (k + 1 + ((items.take m).length - 1)) (items.drop m) (by
      have := List.length_pos_iff.mpr he
      rw [List.length_drop]; omega)
    rw [h1]
    refine ⟨items.take m :: bs, _, rfl, by simp [h2], .cons (shuffle_perm _ _ _) h3, ?_, ?_⟩
    · intro b hb'
      rcases List.mem_cons.mp hb' with rfl | hb'
      · refine ⟨List.length_pos_iff.mpr hne, ?_⟩
        rw [List.length_take]; omega
      · exact h4.1 b hb'
    · intro b hb'
      cases bs with
      | nil => simp at hb'
      | cons c bs =>
        rw [List.dropLast_cons₂] at hb'
        rcases List.mem_cons.mp hb' with rfl | hb'
        · have hd : items.drop m ≠ [] := by
            intro h
            have h5 := (h4.1 c (by simp)).1
            rw [h] at h2
            simp only [List.flatten_cons, List.append_eq_nil_iff] at h2
            rw [h2.1] at h5
            simp at h5
          have : m < items.length := by
            have := List.length_pos_iff.mpr hd
            rw [List.length_drop] at this; omega
          rw [List.length_take]; omega
        · exact h4.2 b hb'

theorem splitLoop_map (f : α → β) (rnd : Nat → Nat) (B : Int) (fuel k : Nat) (items : List α) :
    splitLoop rnd B fuel k (items.map f) =
      match splitLoop rnd B fuel k items with
      | .error e => .error e
      | .ok bs => .ok (bs.map (List.map f)) := by
  induction fuel generalizing k items with
  | zero => rfl
  | succ fuel ih =>
    unfold splitLoop
    cases randrange rnd k (B.tdiv 2 + 1) (B + 1) with
    | error e => rfl
    | ok n =>
      simp only
      split_ifs with h1 h2 h3 h3
      · rfl
      · rfl
      · exact absurd (by simpa using h2) (by simpa using h3)
      · exact absurd (by simpa using h3) (by simpa using h2)
      · rw [← List.map_drop, ih, ← List.map_take, List.length_map]
        cases splitLoop rnd B fuel (k + 1 + ((items.take n.toNat).length - 1)) (items.drop n.toNat) with
        | error e => rfl
        | ok bs => simp only [shuffle_map, List.map_cons]

/-- Blocks of consecutive numbers, each permuted: nothing leaves its block. -/
theorem blocks_local {B : Nat} {bs bs' : List (List Nat)} (hp : List.Forall₂ List.Perm bs' bs)
    (hs : ∀ b ∈ bs, b.length ≤ B) {a m : Nat} (hf : bs.flatten = List.range' a m) :
    ∀ i j : Nat, bs'.flatten[i]? = some j → a + i < j + B ∧ j < a + i + B := by
  induction hp generalizing a m with
  | nil => intro i j h; simp at h
  | @cons b' b bs' bs hb hp ih =>
    intro i j h
    simp only [List.flatten_cons] at hf h
    have hm : b.length ≤ m := by
      have := congrArg List.length hf
      simp only [List.length_append, List.length_range'] at this; omega
    have h1 : List.range' a m = List.range' a b.length ++ List.range' (a + b.length) (m - b.length) := by
      rw [List.range'_append_1]; congr 1; omega
    rw [h1] at hf
    obtain ⟨e1, e2⟩ := List.append_inj hf (by simp)
    have hl := hb.length_eq
    have hB := hs b (by simp)
    by_cases hi : i < b'.length
    · rw [List.getElem?_append_left hi] at h
      have hj : j ∈ b := hb.mem_iff.mp (List.mem_of_getElem? h)
      rw [e1, List.mem_range'_1] at hj
      omega
    · rw [List.getElem?_append_right (by omega)] at h
      have := ih (fun b hb => hs b (by simp [hb])) e2 _ _ h
      omega

theorem flatten_perm_of_forall₂ {bs bs' : List (List α)} (hp : List.Forall₂ List.Perm bs' bs) :
    bs'.flatten.Perm bs.flatten := by
  induction hp with
  | nil => exact .refl _
  | cons h _ ih => exact h.append ih

/-! ### Every order is possible -/

theorem swap_getElem? {l : List α} {i j : Nat} (hi : i < l.length) (hj : j < l.length) (q : Nat) :
    (swap l i j)[q]? = if q = j then l[i]? else if q = i then l[j]? else l[q]? := by
  unfold swap
  rw [List.getElem?_eq_getElem hi, List.getElem?_eq_getElem hj]
  simp only [List.getElem?_set, List.length_set]
  by_cases h1 : q = j
  · subst h1; simp [hj]
  · rw [if_neg (fun h => h1 h.symm), if_neg h1]
    by_cases h2 : q = i
    · subst h2; simp [hi]
    · rw [if_neg (fun h => h2 h.symm), if_neg h2]

/-- `rnd` returns the numbers `draws` from call `k` on. -/
def Draws (rnd : Nat → Nat) (k : Nat) (draws : List Nat) : Prop :=
  ∀ i d : Nat, draws[i]? = some d → rnd (k + i) = d

theorem Draws.cons {rnd : Nat → Nat} {k d : Nat} {ds : List Nat} (h : Draws rnd k (d :: ds)) :
    rnd k = d ∧ Draws rnd (k + 1) ds := by
  refine ⟨h 0 d rfl, fun i e he => ?_⟩
  have := h (i + 1) e (by simpa using he)
  rw [← this]; congr 1; omega

theorem Draws.append {rnd : Nat → Nat} {k : Nat} {ds es : List Nat} (h : Draws rnd k (ds ++ es)) :
    Draws rnd k ds ∧ Draws rnd (k + ds.length) es := by
  refine ⟨fun i e he => h i e ?_, fun i e he => ?_⟩
  · rw [List.getElem?_append_left (List.getElem?_eq_some_iff.mp he).1, he]
  · have := h (ds.length + i) e (by rw [List.getElem?_append_right (by omega)]; simpa using he)
    rw [← this]; congr 1; omega

theorem exists_draws (ds : List Nat) : ∃ rnd, Draws rnd 0 ds :=
  ⟨fun k => (ds[k]?).getD 0, fun i d h => by simp [h]⟩

theorem shuffleFrom_surj (i : Nat) (l l' : List α) (hp : l.Perm l')
    (hd : l.drop (i + 1) = l'.drop (i + 1)) (hi : i < l.length ∨ l = []) :
    ∃ ds : List Nat, ds.length = i ∧ ∀ rnd k, Draws rnd k ds → shuffleFrom rnd i k l = l' := by
  induction i generalizing l with
  | zero =>
    refine ⟨[], rfl, fun rnd k _ => ?_⟩
    show l = l'
    cases l with
    | nil => exact (List.nil_perm.mp hp).symm
    | cons a t =>
      cases l' with
      | nil => exact absurd (List.perm_nil.mp hp) (by simp)
      | cons b t' =>
        simp only [List.drop_succ_cons, List.drop_zero] at hd
        subst hd
        have := (List.perm_append_right_iff (l₁ := [a]) (l₂ := [b]) t).mp hp
        rw [List.singleton_perm_singleton] at this
        rw [this]
  | succ i ih =>
    have hlen := hp.length_eq
    rcases hi with hi | rfl
    swap
    · have : l' = [] := List.nil_perm.mp hp
      subst this
      obtain ⟨ds, h1, h2⟩ := ih [] hp rfl (.inr rfl)
      refine ⟨0 :: ds, by simp [h1], fun rnd k h => ?_⟩
      have := h2 rnd (k + 1) h.cons.2
      simpa [shuffleFrom, swap] using this
    · -- the element that must end up at position `i + 1`
      have hi' : i + 1 < l'.length := by omega
      have htake : (l.take (i + 2)).Perm (l'.take (i + 2)) := by
        rw [← List.perm_append_right_iff (l.drop (i + 2)), List.take_append_drop, hd,
          List.take_append_drop]
        exact hp
      have hmem : l'[i + 1] ∈ l.take (i + 2) := by
        rw [htake.mem_iff, List.mem_take_iff_getElem]
        exact ⟨i + 1, by omega, rfl⟩
      obtain ⟨j, hj, hje⟩ := List.mem_take_iff_getElem.mp hmem
      have hj1 : j < i + 2 := by omega
      have hj2 : j < l.length := by omega
      have hsw := swap_getElem? hi hj2
      obtain ⟨ds, h1, h2⟩ := ih (swap l (i + 1) j) ((swap_perm _ _ _).trans hp) (by
        apply List.ext_getElem?
        intro q
        rw [List.getElem?_drop, List.getElem?_drop, hsw]
        by_cases hq : q = 0
        · subst hq
          by_cases hji : j = i + 1
          · subst hji
            rw [if_pos (by omega), List.getElem?_eq_getElem hi, hje, List.getElem?_eq_getElem]
          · rw [if_neg (by omega), if_pos (by omega), List.getElem?_eq_getElem hj2, hje,
              List.getElem?_eq_getElem]
        · rw [if_neg (by omega), if_neg (by omega)]
          have := congrArg (fun x => x[q - 1]?) hd
          simp only [List.getElem?_drop] at this
          have he : i + 1 + 1 + (q - 1) = i + 1 + q := by omega
          rw [he] at this
          exact this) (.inl (by rw [swap_length]; omega))
      refine ⟨j :: ds, by simp [h1], fun rnd k h => ?_⟩
      have h3 := h.cons
      simp only [shuffleFrom]
      rw [h3.1, Nat.mod_eq_of_lt (by omega)]
      exact h2 rnd (k + 1) h3.2

theorem shuffle_surj {l l' : List α} (hp : l.Perm l') :
    ∃ ds : List Nat, ds.length = l.length - 1 ∧ ∀ rnd k, Draws rnd k ds → shuffle rnd k l = l' := by
  refine shuffleFrom_surj (l.length - 1) l l' hp ?_ ?_
  · rw [List.drop_eq_nil_of_le (by omega), List.drop_eq_nil_of_le (by rw [← hp.length_eq]; omega)]
  · by_cases h : l = []
    · exact .inr h
    · have := List.length_pos_iff.mpr h; left; omega

theorem BatchSizes.tail {B : Nat} {b : List α} {bs : List (List α)} (h : BatchSizes B (b :: bs)) :
    BatchSizes B bs := by
  refine ⟨fun c hc => h.1 c (by simp [hc]), fun c hc => h.2 c ?_⟩
  cases bs with
  | nil => simp at hc
  | cons d bs => rw [List.dropLast_cons₂]; exact List.mem_cons_of_mem _ hc

theorem splitLoop_surj {B : Nat} (hB : 0 < B) {bs bs' : List (List α)}
    (hp : List.Forall₂ List.Perm bs bs') (hs : BatchSizes B bs) :
    ∃ ds : List Nat, ∀ rnd k fuel, Draws rnd k ds → bs.flatten.length < fuel →
      splitLoop rnd B fuel k bs.flatten = .ok bs' := by
  have htd : (B : Int).tdiv 2 = ((B / 2 : Nat) : Int) := by
    rw [Int.tdiv_eq_ediv_of_nonneg (by omega)]; omega
  induction hp with
  | nil =>
    refine ⟨[], fun rnd k fuel _ hf => ?_⟩
    obtain ⟨fuel, rfl⟩ : ∃ f, fuel = f + 1 := ⟨fuel - 1, by simp at hf; omega⟩
    obtain ⟨n, hn⟩ := randrange_isOk rnd k (lo := (B : Int).tdiv 2 + 1) (hi := (B : Int) + 1)
      (by omega)
    have := randrange_ok hn
    unfold splitLoop
    rw [hn]
    simp only
    rw [if_neg (by omega)]
    simp
  | @cons b b' bs bs' hb hp ih =>
    obtain ⟨es, h1⟩ := ih hs.tail
    obtain ⟨ds, hdl, h2⟩ := shuffle_surj hb
    have hbp := (hs.1 b (by simp)).1
    have hbB := (hs.1 b (by simp)).2
    -- the size to be drawn
    obtain ⟨n, hn1, hn2, hn3, hn4⟩ : ∃ n : Nat, B / 2 + 1 ≤ n ∧ n ≤ B ∧
        (b ++ bs.flatten).take n = b ∧ (b ++ bs.flatten).drop n = bs.flatten := by
      cases bs with
      | nil =>
        refine ⟨B, by omega, le_refl _, ?_, ?_⟩
        · simp [List.take_of_length_le hbB]
        · simp [List.drop_eq_nil_of_le hbB]
      | cons c cs =>
        exact ⟨b.length, hs.2 b (by simp [List.dropLast_cons₂]), hbB, by simp, by simp⟩
    refine ⟨(n - (B / 2 + 1)) :: (ds ++ es), fun rnd k fuel hd hf => ?_⟩
    obtain ⟨hd1, hd2⟩ := hd.cons
    obtain ⟨hd2, hd3⟩ := hd2.append
    simp only [List.flatten_cons, List.length_append] at hf
    obtain ⟨fuel, rfl⟩ : ∃ f, fuel = f + 1 := ⟨fuel - 1, by omega⟩
    have hrr : randrange rnd k ((B : Int).tdiv 2 + 1) ((B : Int) + 1) = .ok (n : Int) := by
      unfold randrange
      rw [if_neg (by omega), hd1, Nat.mod_eq_of_lt (by omega)]
      congr 1
      omega
    unfold splitLoop
    rw [hrr]
    simp only [List.flatten_cons, Int.toNat_natCast]
    rw [if_neg (by omega), hn3, hn4, if_neg (by simpa using List.length_pos_iff.mp hbp), ← hdl,
      h1 rnd _ fuel hd3 (by omega), h2 rnd (k + 1) hd2]

end Verif
