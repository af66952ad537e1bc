import Verif.Spec.Datamodel
import Verif.Proofs.PyLemmas

namespace Verif

/-! ### Token construction -/

theorem Token.new_ok (t : Token) (pos lemma' deprel headDoc headSent) (extras : Option TokenExtras) :
    Token.new t.start t.stop pos lemma' deprel t.sub t.repl headDoc headSent extras =
      .ok { t with pos := pos, lemma' := lemma', deprel := deprel, headDoc := headDoc,
                   headSent := headSent, extras := extras.getD Dict.empty } := by
  have h1 : (t.start : Int) < t.stop := by have := t.lt; omega
  simp only [Token.new]
  rw [dif_pos (by omega), dif_pos h1, dif_pos t.mwOk]
  simp

theorem Token.withMorphology_ok (t : Token) (pos lemma') :
    t.withMorphology pos lemma' = .ok { t with pos := pos, lemma' := lemma' } := by
  simp [Token.withMorphology, Token.new_ok]

theorem Token.withSyntax_ok (t : Token) (deprel hd hs) :
    t.withSyntax deprel hd hs = .ok { t with deprel := deprel, headDoc := hd, headSent := hs } := by
  simp [Token.withSyntax, Token.new_ok]

theorem Token.withExtras_ok (t : Token) (e : Option TokenExtras) :
    t.withExtras e = .ok { t with extras := e.getD Dict.empty } := by
  simp [Token.withExtras, Token.new_ok]

/-! ### fill_heads -/

/-- What `fill_heads` computes, case by case. -/
inductive Filled (k : Nat) (t : Token) : Token → Prop
  | none : t.headSent = none → t.headDoc = none → Filled k t t
  | root : (t.headSent = some (-1) ∨ t.headDoc = some (-1)) →
      Filled k t { t with headDoc := some (-1), headSent := some (-1) }
  | sent {s : Int} : t.headSent = some s → s ≠ -1 →
      (t.headDoc = none ∨ t.headDoc = some (s + k) ∧ s + k ≠ -1) →
      Filled k t { t with headDoc := some (s + k), headSent := some s }
  | doc {d : Int} : t.headDoc = some d → d ≠ -1 → t.headSent = none →
      Filled k t { t with headDoc := some d, headSent := some (d - k) }

theorem Token.fillHeads_ok {t t' : Token} {k : Nat} (h : t.fillHeads k = .ok t') : Filled k t t' := by
  unfold Token.fillHeads at h
  simp only [Token.withSyntax_ok] at h
  cases hs : t.headSent with
  | none =>
    cases hd : t.headDoc with
    | none =>
      simp only [hs, hd] at h
      injection h with h; subst h
      exact .none hs hd
    | some d =>
      simp only [hs, hd] at h
      split at h
      · rename_i hr
        injection h with h; subst h
        exact .root (by rw [hs, hd]; exact hr)
      · rename_i hr
        injection h with h; subst h
        refine .doc hd ?_ hs
        rintro rfl; exact hr (.inr rfl)
  | some s =>
    cases hd : t.headDoc with
    | none =>
      simp only [hs, hd] at h
      split at h
      · rename_i hr
        injection h with h; subst h
        exact .root (by rw [hs, hd]; exact hr)
      · rename_i hr
        injection h with h; subst h
        refine .sent hs ?_ (.inl hd)
        rintro rfl; exact hr (.inl rfl)
    | some d =>
      simp only [hs, hd] at h
      split at h
      · rename_i hr
        injection h with h; subst h
        exact .root (by rw [hs, hd]; exact hr)
      · rename_i hr
        split at h
        · cases h
        · rename_i he
          simp only [not_not] at he
          subst he
          injection h with h; subst h
          refine .sent hs ?_ (.inr ⟨hd, ?_⟩)
          · rintro rfl; exact hr (.inl rfl)
          · intro e; exact hr (.inr (by rw [e]))

theorem Token.fillHeads_isOk {t : Token} {k : Nat} :
    (∃ t', t.fillHeads k = .ok t') ↔ HeadsConsistent k t := by
  unfold HeadsConsistent
  unfold Token.fillHeads
  simp only [Token.withSyntax_ok]
  cases hs : t.headSent with
  | none =>
    cases hd : t.headDoc with
    | none => simp
    | some d =>
      simp only
      split <;> simp
  | some s =>
    cases hd : t.headDoc with
    | none =>
      simp only
      split <;> simp
    | some d =>
      simp only
      split
      · rename_i hr
        simp only [Option.some.injEq] at hr ⊢
        constructor
        · rintro _ s' d' rfl rfl
          rcases hr with h | h
          · exact .inl h
          · exact .inr (.inl h)
        · intro _; exact ⟨_, rfl⟩
      · rename_i hr
        simp only [Option.some.injEq, not_or] at hr
        split
        · rename_i he
          simp only [reduceCtorEq, exists_false, Option.some.injEq, false_iff]
          intro h
          rcases h s d rfl rfl with h | h | h
          · exact hr.1 h
          · exact hr.2 h
          · exact he h
        · rename_i he
          simp only [not_not] at he
          constructor
          · rintro _ s' d' e1 e2
            simp only [Option.some.injEq] at e1 e2
            subst e1 e2
            exact .inr (.inr he)
          · intro _; exact ⟨_, rfl⟩

theorem Filled.same {k : Nat} {t t' : Token} (h : Filled k t t') : SameButHeads t t' := by
  cases h <;> simp [SameButHeads]

/-- A token that went through `fill_heads`: headless, or both views present and (both root, or
different by the sentence start). -/
def CanonHeads (k : Nat) (t : Token) : Prop :=
  (t.headSent = none ∧ t.headDoc = none) ∨ (t.headSent = some (-1) ∧ t.headDoc = some (-1)) ∨
  ∃ s : Int, t.headSent = some s ∧ t.headDoc = some (s + k)

theorem Filled.canon {k : Nat} {t t' : Token} (h : Filled k t t') : CanonHeads k t' := by
  cases h with
  | none h1 h2 => exact .inl ⟨h1, h2⟩
  | root h => exact .inr (.inl ⟨rfl, rfl⟩)
  | sent h1 h2 h3 => exact .inr (.inr ⟨_, rfl, rfl⟩)
  | @doc d h1 h2 h3 => exact .inr (.inr ⟨_, rfl, by simp⟩)

/-! ### order -/

theorem tokLe_total (a b : Token) : tokLe a b ∨ tokLe b a := by unfold tokLe; omega
theorem tokLe_trans (a b c : Token) (h1 : tokLe a b) (h2 : tokLe b c) : tokLe a c := by
  unfold tokLe at *; omega
theorem sentLe_total (a b : Sentence) : sentLe a b ∨ sentLe b a := by unfold sentLe; omega
theorem sentLe_trans (a b c : Sentence) (h1 : sentLe a b) (h2 : sentLe b c) : sentLe a c := by
  unfold sentLe at *; omega
theorem sentLe_antisymm (a b : Sentence) (h1 : sentLe a b) (h2 : sentLe b a) : a = b := by
  obtain ⟨s, e, _⟩ := a
  obtain ⟨s', e', _⟩ := b
  simp only [sentLe] at h1 h2
  have : s = s' := by omega
  have : e = e' := by omega
  subst_vars; rfl

theorem Before.trans {a b c : Token} (h1 : Before a b) (h2 : Before b c) : Before a c := by
  unfold Before at *
  have := b.lt
  omega

theorem Before.irrefl (a : Token) : ¬ Before a a := by
  unfold Before
  have := a.lt
  omega

theorem Before.tokLe {a b : Token} (h : Before a b) : tokLe a b := by
  unfold Before at h; unfold Verif.tokLe
  have := a.lt; have := b.lt
  omega

theorem Before.not_intersects {a b : Token} (h : Before a b) : a.intersects b = false := by
  unfold Before at h; unfold Token.intersects
  have := a.lt; have := b.lt
  split
  · rfl
  · split
    · simp only [decide_eq_false_iff_not]; omega
    · omega

theorem Token.intersects_comm (a b : Token) : a.intersects b = b.intersects a := by
  unfold Token.intersects
  by_cases h1 : a.start ≥ b.stop ∨ b.start ≥ a.stop
  · have h1' := Or.symm h1
    simp only [h1, h1', if_true]
  · have h1' : ¬ (b.start ≥ a.stop ∨ a.start ≥ b.stop) := fun h => h1 (Or.symm h)
    simp only [h1, h1', if_false]
    simp only [eq_comm (a := b.start), eq_comm (a := b.stop), eq_comm (a := b.sub)]

theorem before_of_not_intersects {a b : Token} (h : Verif.tokLe a b) (h2 : a.intersects b = false) :
    Before a b := by
  unfold Token.intersects at h2; unfold Verif.tokLe at h; unfold Before
  have := a.lt; have := b.lt
  split at h2
  · omega
  · split at h2
    · simp only [decide_eq_false_iff_not] at h2; omega
    · cases h2

instance : IsTrans Token Before := ⟨fun _ _ _ => Before.trans⟩

theorem checkForSequence_iff {α : Type} (fail : α → α → Bool) (l : List α) :
    checkForSequence fail l = true ↔ l.IsChain (fun a b => fail a b = false) := by
  induction l with
  | nil => simp [checkForSequence]
  | cons a l ih =>
    cases l with
    | nil => simp [checkForSequence]
    | cons b l =>
      simp only [checkForSequence, List.isChain_cons_cons]
      cases hf : fail a b with
      | true => simp
      | false => simpa using ih

theorem isChain_and {α : Type} {R S : α → α → Prop} {l : List α} (h1 : l.IsChain R)
    (h2 : l.IsChain S) : l.IsChain (fun a b => R a b ∧ S a b) := by
  induction l with
  | nil => simp
  | cons a l ih =>
    cases l with
    | nil => simp
    | cons b l =>
      rw [List.isChain_cons_cons] at *
      exact ⟨⟨h1.1, h2.1⟩, ih h1.2 h2.2⟩

theorem nonIntersecting_iff (l : List Token) :
    checkForSequence Token.intersects (pySorted tokLe l) = true ↔
      (pySorted tokLe l).Pairwise Before := by
  have hs := pySorted_pairwise tokLe tokLe_total tokLe_trans l
  rw [checkForSequence_iff, ← List.isChain_iff_pairwise]
  constructor
  · intro h
    exact (isChain_and hs.isChain h).imp (fun a b hab => before_of_not_intersects hab.1 hab.2)
  · intro h
    exact h.imp (fun a b hab => hab.not_intersects)

theorem skippedToken_iff (a b : Token) : skippedToken a b = false ↔ NumberedAfter a b := by
  unfold skippedToken NumberedAfter Token.isMultiword Token.coincides
  cases hb : b.repl with
  | none => simp
  | some r =>
    simp only [Option.isSome_some, if_true, Bool.and_eq_true, beq_iff_eq, forall_const]
    cases ha : a.repl with
    | none => simp
    | some r' =>
      simp only [Option.isSome_some, true_and, decide_not, eq_comm (a := b.start),
        eq_comm (a := b.stop)]
      split
      · rename_i h; simp [h]
      · rename_i h; simp [h]

theorem noSkipped_iff (l : List Token) :
    checkForSequence skippedToken l = true ↔ l.IsChain NumberedAfter := by
  rw [checkForSequence_iff]
  constructor <;> intro h <;> refine h.imp (fun a b hab => ?_)
  · exact (skippedToken_iff a b).mp hab
  · exact (skippedToken_iff a b).mpr hab

theorem pairwise_before_anti {l : List Token} (h : l.Pairwise Before) {a b : Token} (ha : a ∈ l)
    (hb : b ∈ l) (h1 : tokLe a b) (h2 : tokLe b a) : a = b := by
  obtain ⟨i, hi, rfl⟩ := List.mem_iff_getElem.mp ha
  obtain ⟨j, hj, rfl⟩ := List.mem_iff_getElem.mp hb
  rcases Nat.lt_trichotomy i j with hij | hij | hij
  · have := List.pairwise_iff_getElem.mp h i j hi hj hij
    have h3 := l[i].lt
    have h4 := l[j].lt
    simp only [Before, tokLe] at this h1 h2
    omega
  · subst hij; rfl
  · have := List.pairwise_iff_getElem.mp h j i hj hi hij
    have h3 := l[i].lt
    have h4 := l[j].lt
    simp only [Before, tokLe] at this h1 h2
    omega

theorem pySorted_before {l : List Token} (h : l.Pairwise Before) : pySorted tokLe l = l :=
  pySorted_eq_self tokLe (h.imp (fun hab => hab.tokLe))

/-! ### tiling -/

theorem tiles_iff {a n : Nat} {ss : List Sentence} (hne : ss ≠ []) :
    Tiles a ss n ↔ (∃ f l, ss.head? = some f ∧ ss.getLast? = some l ∧ f.start = a ∧ l.stop = n) ∧
      ss.IsChain (fun x y => x.stop = y.start) := by
  induction ss generalizing a with
  | nil => exact absurd rfl hne
  | cons s ss ih =>
    cases ss with
    | nil => simp [Tiles]
    | cons s' ss =>
      simp only [Tiles]
      have := @ih s.stop (by simp)
      simp only [Tiles] at this
      rw [this, List.isChain_cons_cons]
      simp only [List.head?_cons, Option.some.injEq, List.getLast?_cons_cons]
      constructor
      · rintro ⟨h1, ⟨f, l, rfl, h2, h3, h4⟩, h5⟩
        exact ⟨⟨s, l, rfl, h2, h1, h4⟩, h3.symm, h5⟩
      · rintro ⟨⟨f, l, rfl, h2, h1, h4⟩, h3, h5⟩
        exact ⟨h1, ⟨s', l, rfl, h2, h3.symm, h4⟩, h5⟩

theorem Tiles.le {a n : Nat} {ss : List Sentence} (h : Tiles a ss n) : a ≤ n := by
  induction ss generalizing a with
  | nil => simp only [Tiles] at h; omega
  | cons s ss ih =>
    simp only [Tiles] at h
    have := ih h.2
    have := s.lt
    omega

theorem Tiles.mem {a n : Nat} {ss : List Sentence} (h : Tiles a ss n) {s : Sentence} (hs : s ∈ ss) :
    a ≤ s.start ∧ s.stop ≤ n := by
  induction ss generalizing a with
  | nil => simp at hs
  | cons s' ss ih =>
    simp only [Tiles] at h
    rcases List.mem_cons.mp hs with rfl | hs
    · exact ⟨by omega, h.2.le⟩
    · have := ih h.2 hs
      have := s'.lt
      omega

theorem Tiles.cover {a n : Nat} {ss : List Sentence} (h : Tiles a ss n) {j : Nat} (h1 : a ≤ j)
    (h2 : j < n) : ∃ s ∈ ss, s.start ≤ j ∧ j < s.stop := by
  induction ss generalizing a with
  | nil => simp only [Tiles] at h; omega
  | cons s ss ih =>
    simp only [Tiles] at h
    by_cases hj : j < s.stop
    · exact ⟨s, by simp, by omega, hj⟩
    · obtain ⟨s', hs', h3⟩ := ih h.2 (by omega)
      exact ⟨s', by simp [hs'], h3⟩

theorem Tiles.sorted {a n : Nat} {ss : List Sentence} (h : Tiles a ss n) : ss.Pairwise sentLe := by
  induction ss generalizing a with
  | nil => simp
  | cons s ss ih =>
    simp only [Tiles] at h
    refine List.pairwise_cons.mpr ⟨?_, ih h.2⟩
    intro s' hs'
    have := (h.2.mem hs').1
    have := s.lt
    unfold sentLe; omega

theorem Tiles.unique {a n : Nat} {ss : List Sentence} (h : Tiles a ss n) {s s' : Sentence}
    (hs : s ∈ ss) (hs' : s' ∈ ss) {j : Nat} (h1 : s.start ≤ j ∧ j < s.stop)
    (h2 : s'.start ≤ j ∧ j < s'.stop) : s = s' := by
  induction ss generalizing a with
  | nil => simp at hs
  | cons r ss ih =>
    simp only [Tiles] at h
    rcases List.mem_cons.mp hs with e | hs3 <;> rcases List.mem_cons.mp hs' with e' | hs4
    · rw [e, e']
    · subst e; have := (h.2.mem hs4).1; omega
    · subst e'; have := (h.2.mem hs3).1; omega
    · exact ih h.2 hs3 hs4

/-! ### filling all heads -/

theorem fillTokenHeads_spec {toks r : List Token} {ss : List Sentence} {a : Nat}
    (ht : Tiles a ss toks.length) (h : fillTokenHeads toks ss = .ok r) :
    r.length = toks.length - a ∧
    ∀ s ∈ ss, ∀ j, s.start ≤ j → j < s.stop →
      ∃ t t', toks[j]? = some t ∧ r[j - a]? = some t' ∧ Filled s.start t t' := by
  induction ss generalizing a r with
  | nil =>
    simp only [fillTokenHeads] at h
    injection h with h; subst h
    simp only [Tiles] at ht
    simp [ht]
  | cons s ss ih =>
    simp only [Tiles] at ht
    simp only [fillTokenHeads] at h
    cases hm : mapM' (fun t => Token.fillHeads t s.start) (slice toks s.start s.stop) with
    | error e => rw [hm] at h; cases h
    | ok filled =>
      rw [hm] at h
      simp only at h
      cases hr : fillTokenHeads toks ss with
      | error e => rw [hr] at h; cases h
      | ok rest =>
        rw [hr] at h
        simp only at h
        injection h with h; subst h
        obtain ⟨hl, hall⟩ := ih ht.2 hr
        rw [mapM'_ok_iff] at hm
        have hlen := hm.length_eq
        rw [slice_length] at hlen
        have hle := ht.2.le
        have hlt := s.lt
        have hfl : filled.length = s.stop - a := by omega
        refine ⟨by rw [List.length_append]; omega, ?_⟩
        intro s' hs' j hj1 hj2
        rcases List.mem_cons.mp hs' with rfl | hs'
        · have hj : j - a < filled.length := by omega
          rw [List.getElem?_append_left hj]
          have hjs : j - a < (slice toks s'.start s'.stop).length := by
            rw [slice_length]; omega
          have := List.forall₂_iff_get.mp hm
          have h3 := this.2 (j - a) hjs hj
          simp only [List.get_eq_getElem] at h3
          refine ⟨_, _, ?_, List.getElem?_eq_getElem hj, Token.fillHeads_ok h3⟩
          rw [← List.getElem?_eq_getElem, slice_getElem?, if_pos (by omega)]
          congr 1; omega
        · obtain ⟨t, t', h1, h2, h3⟩ := hall s' hs' j hj1 hj2
          have hb := (ht.2.mem hs').1
          refine ⟨t, t', h1, ?_, h3⟩
          rw [List.getElem?_append_right (by omega), hfl]
          rw [← h2]; congr 1; omega

theorem fillTokenHeads_isOk {toks : List Token} {ss : List Sentence} :
    (∃ r, fillTokenHeads toks ss = .ok r) ↔
      ∀ s ∈ ss, ∀ t ∈ slice toks s.start s.stop, HeadsConsistent s.start t := by
  induction ss with
  | nil => simp [fillTokenHeads]
  | cons s ss ih =>
    have hm : (∃ r, mapM' (fun t => Token.fillHeads t s.start) (slice toks s.start s.stop) = .ok r) ↔
        ∀ t ∈ slice toks s.start s.stop, HeadsConsistent s.start t := by
      generalize slice toks s.start s.stop = l
      induction l with
      | nil => simp [mapM']
      | cons t l ihl =>
        simp only [mapM', List.forall_mem_cons]
        rw [← ihl, ← Token.fillHeads_isOk]
        cases h1 : t.fillHeads s.start with
        | error e => simp
        | ok t' =>
          cases h2 : mapM' (fun t => Token.fillHeads t s.start) l with
          | error e => simp
          | ok l' => simp
    simp only [List.forall_mem_cons]
    rw [← ih, ← hm]
    simp only [fillTokenHeads]
    cases h1 : mapM' (fun t => Token.fillHeads t s.start) (slice toks s.start s.stop) with
    | error e => simp
    | ok l =>
      cases h2 : fillTokenHeads toks ss with
      | error e => simp
      | ok l' => simp

theorem fillTokenHeads_nil (ss : List Sentence) : fillTokenHeads [] ss = .ok [] := by
  induction ss with
  | nil => rfl
  | cons s ss ih => simp [fillTokenHeads, slice_nil, mapM', ih]

/-! ### Document construction -/

theorem Document.new_nil (text : Str) (sents : Option (List Sentence)) (v : Bool) :
    Document.new text [] sents v = .ok ⟨text, [], []⟩ := by
  unfold Document.new wordList
  simp only [pySorted_nil, checkForSequence, fillTokenHeads_nil]
  split
  · rename_i h; simp at h
  · rename_i toks h
    simp at h
    simp [h]

theorem sortedSentences_of_ne {tokens : List Token} (h : tokens ≠ []) (ss : List Sentence) :
    sortedSentences tokens (some ss) = pySorted sentLe ss := by
  simp [sortedSentences, h]

theorem Document.new_ok_iff {text : Str} {tokens : List Token} {sents : Option (List Sentence)}
    {v : Bool} {d : Document} (hne : tokens ≠ []) :
    Document.new text tokens sents v = .ok d ↔
      (pySorted tokLe tokens).Pairwise Before ∧
      (pySorted tokLe tokens).IsChain NumberedAfter ∧
      Tiles 0 (sortedSentences tokens sents) tokens.length ∧
      fillTokenHeads (pySorted tokLe tokens) (sortedSentences tokens sents) = .ok d.tokens ∧
      d.text = text ∧ d.sentences = sortedSentences tokens sents ∧
      (v = true → validateSyntax d.tokens d.sentences = .ok ()) := by
  generalize hss : sortedSentences tokens sents = ss
  have hlen : 0 < tokens.length := List.length_pos_of_ne_nil hne
  unfold Document.new wordList
  rw [hss]
  simp only
  by_cases hB : checkForSequence Token.intersects (pySorted tokLe tokens) = true
  swap
  · simp only [Bool.not_eq_true] at hB
    simp only [hB, Bool.not_false, if_true, reduceCtorEq, false_iff]
    rw [← nonIntersecting_iff, hB]
    simp
  rw [← nonIntersecting_iff, ← noSkipped_iff]
  simp only [hB, Bool.not_true, Bool.false_eq_true, if_false, true_and]
  by_cases hS : checkForSequence skippedToken (pySorted tokLe tokens) = true
  swap
  · simp only [Bool.not_eq_true] at hS
    simp [hS]
  simp only [hS, Bool.not_true, Bool.false_eq_true, if_false, true_and]
  by_cases hE : ss = []
  · subst hE
    have : ¬ Tiles 0 [] tokens.length := by simp [Tiles]; omega
    simp [this, hne]
  have hE' : ss.isEmpty = false := by simpa using hE
  simp only [hE', Bool.false_eq_true, if_false]
  cases hf : fillTokenHeads (pySorted tokLe tokens) ss with
  | error e => simp
  | ok toks =>
    simp only
    have hne' : tokens.isEmpty = false := by simpa using hne
    simp only [hne', Bool.false_eq_true, if_false]
    rw [tiles_iff hE]
    obtain ⟨f, hfh⟩ : ∃ f, ss.head? = some f := by
      cases ss with
      | nil => exact absurd rfl hE
      | cons a l => exact ⟨a, rfl⟩
    obtain ⟨l, hlh⟩ : ∃ l, ss.getLast? = some l := by
      cases ss with
      | nil => exact absurd rfl hE
      | cons a l => exact ⟨_, List.getLast?_cons⟩
    simp only [hfh, hlh, Option.some.injEq]
    have hc1 := checkForSequence_iff (fun x y : Sentence => decide (x.stop ≠ y.start)) ss
    have hc2 := checkForSequence_iff (fun x y : Sentence => decide (x.stop > y.start)) ss
    simp only [decide_eq_false_iff_not, not_not] at hc1 hc2
    have himp : ss.IsChain (fun x y => x.stop = y.start) →
        ss.IsChain (fun x y => ¬ x.stop > y.start) := fun h => h.imp (fun a b hab => by omega)
    split
    · simp only [reduceCtorEq, false_iff]
      rintro ⟨⟨⟨f', l', rfl, rfl, h1, h2⟩, _⟩, _⟩
      omega
    split
    · simp only [reduceCtorEq, false_iff]
      rintro ⟨⟨⟨f', l', rfl, rfl, h1, h2⟩, _⟩, _⟩
      omega
    split
    · simp only [reduceCtorEq, false_iff]
      rintro ⟨⟨⟨f', l', rfl, rfl, h1, h2⟩, _⟩, _⟩
      omega
    split
    · rename_i hn
      simp only [Bool.not_eq_true', ← Bool.not_eq_true] at hn
      rw [hc1] at hn
      simp [hn]
    rename_i hn
    simp only [Bool.not_eq_true', Bool.not_eq_false] at hn
    rw [hc1] at hn
    split
    · rename_i hn2
      simp only [Bool.not_eq_true', ← Bool.not_eq_true] at hn2
      rw [hc2] at hn2
      exact absurd (himp hn) hn2
    have hall : ∃ f_1 l_1 : Sentence, f = f_1 ∧ l = l_1 ∧ f_1.start = 0 ∧ l_1.stop = tokens.length :=
      ⟨f, l, rfl, rfl, by omega, by omega⟩
    simp only [hall, hn, and_self, true_and]
    split
    · rename_i hv
      cases hval : validateSyntax toks ss with
      | error e =>
        simp only [reduceCtorEq, Except.ok.injEq, false_iff]
        rintro ⟨h1, h2, h3, h4⟩
        have := h4 hv
        rw [← h1, h3, hval] at this
        cases this
      | ok u =>
        simp only [Except.ok.injEq]
        constructor
        · rintro rfl
          exact ⟨rfl, rfl, rfl, fun _ => hval⟩
        · rintro ⟨h1, h2, h3, h4⟩
          cases d; simp_all
    · rename_i hv
      simp only [Except.ok.injEq]
      constructor
      · rintro rfl
        exact ⟨rfl, rfl, rfl, fun h => absurd h hv⟩
      · rintro ⟨h1, h2, h3, h4⟩
        cases d; simp_all

end Verif
