import Verif.Proofs.UdLoad2
import Mathlib.Data.Fintype.Card
import Mathlib.Tactic.Convert

/-!
# Properties C24 and C25: treebanks loaded for evaluation
-/

namespace Verif

/-! ### C24 -/

theorem Climbs.det {hs : List Int} {k m i : Nat} (h1 : Climbs hs k i) (h2 : Climbs hs m i) : k = m := by
  induction h1 generalizing m with
  | root h =>
    cases h2 with
    | root _ => rfl
    | step h' _ => rw [h] at h'; injection h' with h'; omega
  | step h _ ih =>
    cases h2 with
    | root h' => rw [h] at h'; injection h' with h'; omega
    | step h' hr' =>
      rw [h] at h'; injection h' with h'
      have := ih (by convert hr' using 1; omega)
      omega

theorem Climbs.lower {hs : List Int} {k i : Nat} (h : Climbs hs k i) : ∀ j ≤ k, ∃ p, Climbs hs j p := by
  induction h with
  | root h => intro j hj; exact ⟨_, by rw [Nat.le_zero.1 hj]; exact .root h⟩
  | step h hc ih =>
    rename_i i h' k
    intro j hj
    by_cases e : j = k + 1
    · exact ⟨i, e ▸ .step h hc⟩
    · exact ih j (by omega)

/-- A path to the root is shorter than the sentence. -/
theorem Climbs.lt_length {hs : List Int} {k i : Nat} (h : Climbs hs k i) : k < hs.length := by
  have hex : ∀ j : Fin (k + 1), ∃ p : Fin hs.length, Climbs hs j p := by
    intro j
    obtain ⟨p, hp⟩ := h.lower j (by omega)
    exact ⟨⟨p, hp.lt⟩, hp⟩
  choose f hf using hex
  have hinj : Function.Injective f := by
    intro a b hab
    have h1 := hf a
    have h2 := hf b
    rw [hab] at h1
    exact Fin.ext (h1.det h2)
  have := Fintype.card_le_of_injective f hinj
  simp at this
  omega

/-- C24, first half: a loaded file follows the grammar, the treebank is the one it spells, and in every
sentence every word has a HEAD, exactly one of them is 0, and unless some HEAD is negative they form a
tree (so that each is at most the length of the sentence).  HEADs of words outside of multi-word tokens
are never negative by the grammar. -/
theorem C24_loaded_trees {depth : Nat} {text : Str} {ud : UD} (h : loadConllu depth text = .ok ud) :
    ∃ sents, UdSents (udFileLines text) sents ∧ UdOf sents ud ∧ ∀ us ∈ sents, ∃ hs, HeadsOf (rowsOf us) hs ∧
      (∃! i : Nat, hs[i]? = some 0) ∧ ((∀ x ∈ hs, 0 ≤ x) → HeadTree hs ∧ ∀ x ∈ hs, x ≤ hs.length) := by
  rw [loadConllu_eq] at h
  obtain ⟨sents, h1, h2, h3⟩ := file_sound _ _ (Nat.le_refl _) [] {} closed_start h
  refine ⟨sents, h1, by simpa using h2, ?_⟩
  intro us hus
  obtain ⟨hs, q1, q2, q3⟩ := h3 us hus
  exact ⟨hs, q1, q2, fun hp => ⟨q3 hp, fun x hx => ((q3 hp).range x hx).2⟩⟩

theorem Climbs.meets {hs : List Int} {k i : Nat} (h : Climbs hs k i) (b : Nat) : Meets hs b k i := by
  induction h with
  | root h => exact .root h
  | step h _ ih => exact .step h ih

theorem HeadTree.shallow {hs : List Int} (h : HeadTree hs) : Shallow hs.length hs := by
  intro i hi
  obtain ⟨k, hk⟩ := h.2 i hi
  exact ⟨k, hk.lt_length, hk.meets i⟩

theorem Shallow.mono {hs : List Int} {d d' : Nat} (h : Shallow d hs) (hd : d ≤ d') : Shallow d' hs := by
  intro i hi
  obtain ⟨k, hk, hm⟩ := h i hi
  exact ⟨k, by omega, hm⟩

/-- C24, second half: a file that follows the grammar and whose sentences are trees is accepted, provided
no sentence is longer than the recursion the interpreter admits. -/
theorem C24_accepts {depth : Nat} {text : Str} {sents : List (List UdToken)} (h : UdSents (udFileLines text) sents)
    (ht : ∀ us ∈ sents, ∃ hs, HeadsOf (rowsOf us) hs ∧ HeadTree hs ∧ hs.length ≤ depth) :
    ∃ ud, loadConllu depth text = .ok ud ∧ UdOf sents ud := by
  rw [loadConllu_eq]
  have := file_complete (d := depth) h (fun us hus => by
    obtain ⟨hs, q1, q2, q3⟩ := ht us hus
    exact ⟨hs, q1, q2, q2.shallow.mono q3⟩) [] {} closed_start
  simpa using this

/-! ### C78 -/

/-- C78: for files that follow the grammar and have no negative HEAD, the loader accepts exactly those
whose sentences are trees in which climbing from the words in turn never takes `depth` steps before the
root or a word met before is reached. -/
theorem C78_accepts_iff {depth : Nat} {text : Str} {sents : List (List UdToken)} (h : UdSents (udFileLines text) sents)
    (hn : ∀ us ∈ sents, ∃ hs, HeadsOf (rowsOf us) hs ∧ ∀ x ∈ hs, 0 ≤ x) :
    (∃ ud, loadConllu depth text = .ok ud) ↔
      ∀ us ∈ sents, ∃ hs, HeadsOf (rowsOf us) hs ∧ HeadTree hs ∧ Shallow depth hs := by
  rw [loadConllu_eq]
  constructor
  · rintro ⟨ud, hu⟩
    exact (file_shallow h hn [] {} closed_start ud hu).2
  · intro ht
    obtain ⟨ud, h1, _⟩ := file_complete h ht [] {} closed_start
    exact ⟨ud, h1⟩

/-- C78: a file that follows the grammar and whose sentences are trees is rejected only because of the
recursion limit. -/
theorem C78_only_recursion {depth : Nat} {text : Str} {sents : List (List UdToken)} (h : UdSents (udFileLines text) sents)
    (ht : ∀ us ∈ sents, ∃ hs, HeadsOf (rowsOf us) hs ∧ HeadTree hs) :
    (∃ ud, loadConllu depth text = .ok ud) ∨ loadConllu depth text = .error .recursion := by
  rw [loadConllu_eq]
  exact file_recursion h ht [] {} closed_start

/-- The HEADs of a chain to the right: every word depends on the next one, the last one is the root. -/
def rightChain (n : Nat) : List Int := (List.range n).map (fun i : Nat => ((i : Int) + 2)) ++ [0]

theorem rightChain_get (n i : Nat) (hi : i < n) : (rightChain n)[i]? = some (((i + 1 : Nat) : Int) + 1) := by
  unfold rightChain
  rw [List.getElem?_append_left (by simpa using hi), List.getElem?_map, List.getElem?_range hi]
  simp only [Option.map_some, Option.some.injEq]
  omega

theorem rightChain_last (n : Nat) : (rightChain n)[n]? = some 0 := by
  unfold rightChain
  rw [List.getElem?_append_right (by simp)]
  simp

theorem rightChain_climbs (n k : Nat) (hk : k ≤ n) : Climbs (rightChain n) k (n - k) := by
  induction k with
  | zero => exact .root (rightChain_last n)
  | succ k ih =>
    refine .step (h := n - k) ?_ (ih (by omega))
    rw [rightChain_get n _ (by omega)]
    congr 2; omega

theorem rightChain_tree (n : Nat) : HeadTree (rightChain n) := by
  refine ⟨⟨n, rightChain_last n, ?_⟩, ?_⟩
  · intro i hi
    by_contra hne
    by_cases h : i < n
    · rw [rightChain_get n i h] at hi
      injection hi with hi; omega
    · have := (List.getElem?_eq_some_iff.1 hi).1
      simp [rightChain] at this
      omega
  · intro i hi
    simp [rightChain] at hi
    exact ⟨n - i, by have := rightChain_climbs n (n - i) (by omega); rwa [show n - (n - i) = i by omega] at this⟩

/-- C78: however large the limit is, there are trees which climb too far: a chain to the right of more
than `depth` words. -/
theorem C78_deep (depth n : Nat) : HeadTree (rightChain n) ∧ (Shallow depth (rightChain n) ↔ n < depth) := by
  refine ⟨rightChain_tree n, ?_, ?_⟩
  · intro h
    obtain ⟨k, hk, hm⟩ := h 0 (by simp [rightChain])
    have key : ∀ k i, Meets (rightChain n) 0 k i → i ≤ n → n ≤ i + k := by
      intro k i hm
      induction hm with
      | root h =>
        intro hi
        by_contra hc
        rw [rightChain_get n _ (by omega)] at h
        injection h with h; omega
      | seen hj _ => omega
      | step h _ ih =>
        intro hi
        rename_i i h' k _
        by_cases e : i < n
        · rw [rightChain_get n i e] at h
          injection h with h
          have := ih (by omega)
          omega
        · omega
    have := key k 0 hm (by omega)
    omega
  · intro h
    exact (rightChain_tree n).shallow.mono (by simp [rightChain]; omega)

namespace Demo

/-- Two sentences: a multi-word token "ab" with a comment before it, and "c d". -/
def udText : Str :=
  "# c\n1-2\tab\t_\t_\t_\t_\t_\t_\t_\t_\n1\ta\t_\tX\t_\t_\t2\tnsubj:x\t_\t_\n2\tb\t_\tY\t_\t_\t0\troot\t_\t_\n\n1\tc d\t_\tX\t_\t_\t0\troot\t_\t_\n1.1\t_\t_\t_\t_\t_\t_\t_\t_\t_\n\n".toList

def row (id form upos head deprel : String) : List Str :=
  [id.toList, form.toList, "_".toList, upos.toList, "_".toList, "_".toList, head.toList, deprel.toList, "_".toList,
   "_".toList]

def udTokens : List (List UdToken) :=
  [[⟨"ab".toList, true, [row "1" "a" "X" "2" "nsubj", row "2" "b" "Y" "0" "root"]⟩],
   [⟨"cd".toList, false, [row "1" "cd" "X" "0" "root"]⟩]]

def udLoaded : UD :=
  { characters := "abcd".toList
    tokens := [⟨0, 2⟩, ⟨2, 4⟩]
    words := [⟨⟨0, 2⟩, row "1" "a" "X" "2" "nsubj", true, .word 1⟩, ⟨⟨0, 2⟩, row "2" "b" "Y" "0" "root", true, .none⟩,
      ⟨⟨2, 4⟩, row "1" "cd" "X" "0" "root", false, .none⟩]
    sentences := [⟨0, 2⟩, ⟨2, 4⟩] }

theorem udLoads : loadConllu 10 udText = .ok udLoaded := by decide +kernel

end Demo

/-- The hypotheses of `C24_loaded_trees` and `C24_accepts` are met by a file with a comment, a multi-word
token, an empty node and a form with a space. -/
example : loadConllu 10 Demo.udText = .ok Demo.udLoaded ∧ UdSents (udFileLines Demo.udText) Demo.udTokens ∧
    (∀ us ∈ Demo.udTokens, ∃ hs, HeadsOf (rowsOf us) hs ∧ HeadTree hs ∧ hs.length ≤ 10) := by
  refine ⟨Demo.udLoads, ?_, ?_⟩
  · have e : udFileLines Demo.udText = ["# c".toList] ++ (["1-2\tab\t_\t_\t_\t_\t_\t_\t_\t_".toList,
        "1\ta\t_\tX\t_\t_\t2\tnsubj:x\t_\t_".toList, "2\tb\t_\tY\t_\t_\t0\troot\t_\t_".toList] ++
        [] :: ([] ++ (["1\tc d\t_\tX\t_\t_\t0\troot\t_\t_".toList, "1.1\t_\t_\t_\t_\t_\t_\t_\t_\t_".toList] ++ [] :: []))) := by
      decide +kernel
    rw [e]
    refine .cons (by decide) (by intro l h; injection h with h; subst h; decide)
      (.multi (wl := ["1\ta\t_\tX\t_\t_\t2\tnsubj:x\t_\t_".toList, "2\tb\t_\tY\t_\t_\t0\troot\t_\t_".toList])
        rfl (by decide) (by decide) (a := "1".toList) (b := "2".toList) (x := 1) (y := 2) (by decide) rfl (by decide)
        (by decide) (by decide) (by decide) (by decide) (.nil _)) ?_
    refine .cons (by simp) (by intro l h; injection h with h; subst h; decide)
      (.word rfl (by decide) (by decide) (by decide) rfl (by decide) (by decide) (h := 0) (by decide) (by decide)
        (.skip rfl (by decide) (by decide) (.nil _))) (.nil (by simp))
  · intro us hus
    rcases List.mem_cons.1 hus with rfl | hus
    · refine ⟨[2, 0], .cons (by decide) (.cons (by decide) .nil), ⟨⟨1, rfl, ?_⟩, ?_⟩, by decide⟩
      · rintro (_ | _ | i) h
        · simp at h
        · rfl
        · simp at h
      · rintro (_ | _ | i) h
        · exact ⟨1, .step (h := 1) rfl (.root rfl)⟩
        · exact ⟨0, .root rfl⟩
        · simp at h; omega
    · rcases List.mem_cons.1 hus with rfl | hus
      · refine ⟨[0], .cons (by decide) .nil, ⟨⟨0, rfl, ?_⟩, ?_⟩, by decide⟩
        · rintro (_ | i) h
          · rfl
          · simp at h
        · rintro (_ | i) h
          · exact ⟨0, .root rfl⟩
          · simp at h
      · cases hus

/-- The restriction to non-negative HEADs is needed: inside of a multi-word token HEAD -1 is accepted and
becomes, by Python's negative indices, a word of the file. -/
theorem C24_negative_heads_accepted : ∃ text ud, loadConllu 10 text = .ok ud ∧
    ∃ w ∈ ud.words, w.head = .ok (-1) ∧ w.parent = .word 0 :=
  ⟨"1-2\tab\t_\t_\t_\t_\t_\t_\t_\t_\n1\ta\t_\t_\t_\t_\t0\t_\t_\t_\n2\tb\t_\t_\t_\t_\t-1\t_\t_\t_\n\n".toList,
   _, (by rfl : _ = Except.ok _), by decide +kernel⟩

/-- C78, an instance: a chain of three words to the right is loaded with three levels of recursion, not
with two. -/
example :
    let text := "1\ta\t_\t_\t_\t_\t2\t_\t_\t_\n2\tb\t_\t_\t_\t_\t3\t_\t_\t_\n3\tc\t_\t_\t_\t_\t0\t_\t_\t_\n\n".toList
    (loadConllu 3 text).isOk = true ∧ (loadConllu 2 text).map UD.words = .error .recursion := by decide +kernel

/-! ### C25 -/

theorem spansTile_tokSpans {us : List UdToken} (h : ∀ u ∈ us, u.form ≠ []) :
    ∀ off, SpansTile off (tokSpans off us) (off + udLength us) := by
  induction us with
  | nil => intro off; simp [tokSpans, SpansTile, udLength]
  | cons u us ih =>
    intro off
    have := List.length_pos_iff.2 (h u (by simp))
    refine ⟨rfl, by show off < off + _; omega, ?_⟩
    rw [udLength_cons, ← Nat.add_assoc]
    exact ih (fun v hv => h v (by simp [hv])) _

theorem spansTile_sentSpans {sents : List (List UdToken)} (h : ∀ us ∈ sents, 0 < udLength us) :
    ∀ off, SpansTile off (sentSpans off sents) (off + udLength sents.flatten) := by
  induction sents with
  | nil => intro off; simp [sentSpans, SpansTile, udLength]
  | cons u us ih =>
    intro off
    have := h u (by simp)
    refine ⟨rfl, by show off < off + _; omega, ?_⟩
    rw [List.flatten_cons, udLength_append, ← Nat.add_assoc]
    exact ih (fun v hv => h v (by simp [hv])) _

theorem UdLines.forms {k : Nat} {ls : List Str} {us : List UdToken} (h : UdLines k ls us) :
    ∀ u ∈ us, u.form ≠ [] ∧ (∀ r ∈ u.rows, r.length = 10) ∧ (u.multi = false → u.rows.length = 1) := by
  induction h with
  | nil => simp
  | skip _ _ _ _ ih => exact ih
  | word e hl _ _ _ hf _ _ _ _ ih =>
    intro u hu
    rcases List.mem_cons.1 hu with rfl | hu
    · exact ⟨hf, by simp [cutDeprel, withForm, hl], by simp⟩
    · exact ih u hu
  | multi _ _ _ _ _ hf _ _ _ hw _ ih =>
    intro u hu
    rcases List.mem_cons.1 hu with rfl | hu
    · refine ⟨hf, ?_, by simp⟩
      intro r hr
      obtain ⟨w, hw', rfl⟩ := List.mem_map.1 hr
      simp [cutDeprel, hw w hw']
    · exact ih u hu

theorem UdSents.forms {ls : List Str} {sents : List (List UdToken)} (h : UdSents ls sents) :
    ∀ us ∈ sents, ∀ u ∈ us, u.form ≠ [] ∧ (∀ r ∈ u.rows, r.length = 10) ∧ (u.multi = false → u.rows.length = 1) := by
  induction h with
  | nil _ => simp
  | cons _ _ hu _ ih =>
    intro us hus
    rcases List.mem_cons.1 hus with rfl | hus
    · exact hu.forms
    · exact ih us hus

theorem tokWords_mem {off : Nat} {us : List UdToken} {p : Span × Bool × List Str} (h : p ∈ tokWords off us) :
    p.1 ∈ tokSpans off us ∧ ∃ u ∈ us, p.2.1 = u.multi ∧ p.2.2 ∈ u.rows := by
  induction us generalizing off with
  | nil => simp [tokWords] at h
  | cons u us ih =>
    rw [tokWords, List.mem_append, List.mem_map] at h
    rcases h with ⟨r, hr, rfl⟩ | h
    · exact ⟨by simp [tokSpans], u, by simp, rfl, hr⟩
    · obtain ⟨h1, v, hv, h2⟩ := ih h
      exact ⟨by simp [tokSpans, h1], v, by simp [hv], h2⟩

theorem tokSpans_ge {off : Nat} {us : List UdToken} {s : Span} (h : s ∈ tokSpans off us) : off ≤ s.start := by
  induction us generalizing off with
  | nil => simp [tokSpans] at h
  | cons u us ih =>
    rcases List.mem_cons.1 h with rfl | h
    · exact Nat.le_refl _
    · have := ih h; omega

/-- The relation `WordBefore` on the data of words. -/
def DataBefore (a b : Span × Bool × List Str) : Prop :=
  (a.2.1 = true ∧ b.2.1 = true ∧ a.1 = b.1) ∨ a.1.stop ≤ b.1.start

theorem tokWords_ordered {us : List UdToken} (h : ∀ u ∈ us, u.multi = false → u.rows.length = 1) :
    ∀ off, (tokWords off us).Pairwise DataBefore := by
  induction us with
  | nil => intro off; exact .nil
  | cons u us ih =>
    intro off
    rw [tokWords, List.pairwise_append]
    refine ⟨?_, ih (fun v hv => h v (by simp [hv])) _, ?_⟩
    · cases hm : u.multi with
      | true =>
        rw [List.pairwise_map]
        exact List.pairwise_of_forall (fun _ _ => .inl ⟨rfl, rfl, rfl⟩)
      | false =>
        have := h u (by simp) hm
        obtain ⟨r, hr⟩ := List.length_eq_one_iff.1 this
        rw [hr]
        simp
    · intro a ha b hb
      obtain ⟨r, _, rfl⟩ := List.mem_map.1 ha
      have := tokSpans_ge (tokWords_mem hb).1
      exact .inr this

/-- C25: the token spans are non-empty and tile the characters, and so do the sentence spans. -/
theorem C25_spans_tile {depth : Nat} {text : Str} {ud : UD} (h : loadConllu depth text = .ok ud) :
    SpansTile 0 ud.tokens ud.characters.length ∧ SpansTile 0 ud.sentences ud.characters.length := by
  obtain ⟨sents, h1, h2, h3⟩ := C24_loaded_trees h
  have hf := h1.forms
  have hl : ud.characters.length = 0 + udLength sents.flatten := by rw [h2.characters]; simp [udLength]
  constructor
  · rw [h2.tokens, hl]
    refine spansTile_tokSpans ?_ 0
    intro u hu
    obtain ⟨us, hus, hu⟩ := List.mem_flatten.1 hu
    exact (hf us hus u hu).1
  · rw [h2.sentences, hl]
    refine spansTile_sentSpans ?_ 0
    intro us hus
    obtain ⟨hs, q1, ⟨i, q2, _⟩, _⟩ := h3 us hus
    have : 0 < (rowsOf us).length := by
      rw [q1.length_eq]
      have := (List.getElem?_eq_some_iff.1 q2).1
      omega
    cases us with
    | nil => simp [rowsOf] at this
    | cons u us =>
      have := List.length_pos_iff.2 (hf _ hus u (by simp)).1
      rw [udLength_cons]; omega

/-- C25: every word has the span of a token and ten columns, its parent is a word of the file or none,
and words are ordered by their spans: two words share a span only within a multi-word token. -/
theorem C25_words {depth : Nat} {text : Str} {ud : UD} (h : loadConllu depth text = .ok ud) :
    (∀ w ∈ ud.words, w.span ∈ ud.tokens ∧ w.columns.length = 10 ∧ (w.parent = .none ∨ ∃ p < ud.words.length, w.parent = .word p)) ∧
    ud.words.Pairwise WordBefore := by
  obtain ⟨sents, h1, h2, h3⟩ := C24_loaded_trees h
  have hf := h1.forms
  have hf' : ∀ u ∈ sents.flatten, u.form ≠ [] ∧ (∀ r ∈ u.rows, r.length = 10) ∧ (u.multi = false → u.rows.length = 1) := by
    intro u hu
    obtain ⟨us, hus, hu⟩ := List.mem_flatten.1 hu
    exact hf us hus u hu
  constructor
  · intro w hw
    have hm : (w.span, w.multi, w.columns) ∈ tokWords 0 sents.flatten := by
      rw [← h2.words]; exact List.mem_map.2 ⟨w, hw, rfl⟩
    obtain ⟨q1, u, hu, _, q2⟩ := tokWords_mem hm
    refine ⟨by rw [h2.tokens]; exact q1, (hf' u hu).2.1 _ q2, ?_⟩
    have hlink : ∀ (o : Nat) (ss : List (List UdToken)) (ls : List Link), LinksOf o ss ls → ∀ l ∈ ls,
        l = .none ∨ ∃ p, l = .word p := by
      intro o ss
      induction ss generalizing o with
      | nil => intro ls hl l hm; cases hl; cases hm
      | cons us ss ih =>
        rintro ls ⟨a, b, rfl, ha, hb⟩ l hm
        rcases List.mem_append.1 hm with hm | hm
        · obtain ⟨i, hi, e⟩ := List.getElem_of_mem hm
          rw [List.forall₂_iff_get] at ha
          obtain ⟨hd, _, z1, z2, z3⟩ := ha.2 i (by rw [ha.1]; exact hi) hi
          rw [List.get_eq_getElem, e] at z1 z2 z3
          by_cases hz : hd = 0
          · exact .inl (z1 hz)
          · by_cases hp : 0 < hd
            · exact .inr ⟨_, z2 hp⟩
            · exact .inr (z3 (by omega))
        · exact ih _ b hb l hm
    rcases hlink 0 sents _ h2.links w.parent (List.mem_map.2 ⟨w, hw, rfl⟩) with e | ⟨p, e⟩
    · exact .inl e
    · exact .inr ⟨p, h2.bound w hw p e, e⟩
  · have := tokWords_ordered (fun u hu => (hf' u hu).2.2) 0
    rw [← h2.words, List.pairwise_map] at this
    exact this

example : loadConllu 10 Demo.udText = .ok Demo.udLoaded := Demo.udLoads

end Verif
