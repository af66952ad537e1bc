import Verif.Proofs.Reader2

/-!
# The writer against its specification
-/

namespace Verif

/-- The row of a word, as `toConll` gives it. -/
def IsRow (cols : Cols) (text : Str) (k : Nat) (t : Token) (b : Bool) (r : List Str) : Prop :=
  toConll cols text Token.headSent k t b true = .ok r

theorem intStr_nat (n : Nat) : intStr (n : Int) = natStr n := rfl

theorem writeRegulars {cols : Cols} {text : Str} {toks : List Token} {st st' : WState}
    (h : forM' (writeRegular cols text false) st toks = .ok st') :
    ∃ rows, WordRows (IsRow cols text) st.index toks rows ∧
      st' = { st with
        out := st.out ++ rows.flatMap formatLine
        index := st.index + toks.length } := by
  induction toks generalizing st with
  | nil =>
    cases h
    exact ⟨[], ⟨rfl, by simp⟩, by simp⟩
  | cons t toks ih =>
    simp only [forM'] at h
    split at h
    · rename_i st1 h1
      unfold writeRegular at h1
      split at h1
      · cases h1
      · rename_i r hr
        injection h1 with h1
        obtain ⟨rows, g1, g2⟩ := ih h
        subst h1
        refine ⟨r :: rows, ⟨by simp [g1.1], ?_⟩, ?_⟩
        · intro i u q hu hq
          cases i with
          | zero =>
            simp at hu hq
            subst hu hq
            exact hr
          | succ i =>
            simp at hu hq
            have := g1.2 i u q hu hq
            simp only at this
            rwa [Nat.add_right_comm, Nat.add_assoc] at this
        · rw [g2]
          simp [Nat.add_comm, Nat.add_left_comm]
    · cases h

theorem writeMultiword_ok {cols : Cols} {text : Str} {st st' : WState} {t : Token} {g : List Token}
    (h : writeMultiword cols text st (st.index + 1) t (t :: g) = .ok st') :
    ∃ rows, WordRows (IsRow cols text) st.index (t :: g) rows ∧
      st' = { st with
        out := st.out ++ formatLine (headerRow text st.index (g.length + 1) t) ++ rows.flatMap formatLine
        index := st.index + (g.length + 1) } := by
  unfold writeMultiword at h
  obtain ⟨rows, h1, h2⟩ := writeRegulars h
  refine ⟨rows, h1, ?_⟩
  rw [h2]
  have e : ((st.index + 1 : Nat) : Int) + ((t :: g).length : Nat) - 1 = ((st.index + (g.length + 1) : Nat) : Int) := by
    simp only [List.length_cons]; omega
  rw [e, intStr_nat]
  simp [headerRow]

theorem writeSentence_ok {cols : Cols} {text : Str} (toks : List Token) :
    (∀ st st' : WState, st.pending = none → writeSentence cols text st toks = .ok st' →
      ∃ rows, Block text (IsRow cols text) st.index toks rows ∧ st'.out = st.out ++ blockText rows ∧
        st'.index = 0 ∧ (EndsRegular toks → st'.pending = none)) ∧
    (∀ (st st' : WState) (f : Token) (g : List Token), st.pending = some (st.index + 1, f, f :: g) →
      f.isMultiword = true → (∀ u ∈ g, f.coincides u = true) → writeSentence cols text st toks = .ok st' →
      ∃ rows, Block text (IsRow cols text) st.index (f :: (g ++ toks)) rows ∧
        st'.out = st.out ++ blockText rows ∧
        st'.index = 0 ∧ (EndsRegular (f :: (g ++ toks)) → st'.pending = none)) := by
  have hends : ∀ {a b : List Token}, EndsRegular (a ++ b) → EndsRegular b := by
    intro a b h u hu t ht
    refine h u ?_ t (by simp [ht])
    cases b with
    | nil => simp at hu
    | cons x b => rw [List.getLast?_append, hu]; rfl
  induction toks with
  | nil =>
    constructor
    · intro st st' hp h
      simp only [writeSentence, forM', writeEnd, hp] at h
      injection h with h
      subst h
      exact ⟨[], .nil _, by simp [blockText], rfl, fun _ => rfl⟩
    · intro st st' f g hp hf hg h
      simp only [writeSentence, forM', writeEnd, hp] at h
      split at h
      · cases h
      · rename_i st1 h1
        injection h with h
        subst h
        obtain ⟨ws, g1, g2⟩ := writeMultiword_ok h1
        refine ⟨_, .multi hf hg (by simp) g1 (.nil _), ?_, rfl, ?_⟩
        · rw [g2]; simp [blockText]
        · intro hE
          exfalso
          simp only [List.append_nil] at hE
          cases hg' : g.getLast? with
          | none =>
            have : g = [] := by simpa using hg'
            subst this
            have := hE f rfl f (by simp) hf
            simp [Token.coincides] at this
          | some u =>
            have := hE u (by rw [List.getLast?_cons, hg']; rfl) f (by simp) hf
            rw [hg u (List.mem_of_getLast? hg')] at this
            cases this
  | cons t toks ih =>
    -- a step from the regular state
    have hreg : ∀ (st st1 st' : WState), writeTokenRegular cols text st t = .ok st1 → 
        writeSentence cols text st1 toks = .ok st' →
        ∃ rows, Block text (IsRow cols text) st.index (t :: toks) rows ∧ st'.out = st.out ++ blockText rows ∧
          st'.index = 0 ∧ (EndsRegular (t :: toks) → st'.pending = none) := by
      intro st st1 st' h1 h2
      unfold writeTokenRegular at h1
      split at h1
      · rename_i hm
        injection h1 with h1
        subst h1
        exact ih.2 { st with pending := some (st.index + 1, t, [t]) } st' t [] rfl hm (by simp) h2
      · rename_i hm
        unfold writeRegular at h1
        split at h1
        · cases h1
        · rename_i r hr
          injection h1 with h1
          subst h1
          obtain ⟨rows, g1, g2, g3, g4⟩ := ih.1 _ st' rfl h2
          refine ⟨r :: rows, .word (by simpa using hm) hr g1, ?_, g3, fun hE => g4 (hends (a := [t]) hE)⟩
          rw [g2]; simp [blockText]
    have hsplit : ∀ (st st' : WState), writeSentence cols text st (t :: toks) = .ok st' →
        ∃ st1, writeToken cols text st t = .ok st1 ∧ writeSentence cols text st1 toks = .ok st' := by
      intro st st' h
      simp only [writeSentence, forM'] at h
      cases h1 : writeToken cols text st t with
      | error e => rw [h1] at h; cases h
      | ok st1 => rw [h1] at h; exact ⟨st1, rfl, h⟩
    constructor
    · intro st st' hp h
      obtain ⟨st1, h1, h2⟩ := hsplit st st' h
      unfold writeToken at h1
      rw [hp] at h1
      exact hreg st st1 st' h1 h2
    · intro st st' f g hp hf hg h
      obtain ⟨st1, h1, h2⟩ := hsplit st st' h
      unfold writeToken at h1
      rw [hp] at h1
      simp only at h1
      split at h1
      · rename_i hc
        injection h1 with h1
        subst h1
        have := ih.2 _ st' f (g ++ [t]) rfl hf (by
          intro u hu
          rcases List.mem_append.mp hu with hu | hu
          · exact hg u hu
          · simp at hu; subst hu; exact hc) h2
        simpa using this
      · rename_i hc
        split at h1
        · cases h1
        · rename_i st2 hw
          obtain ⟨ws, g1, g2⟩ := writeMultiword_ok hw
          obtain ⟨rows, k1, k2, k3, k4⟩ := hreg st2 st1 st' h1 h2
          refine ⟨_, .multi hf hg (toks := t :: toks) (by
            intro u hu; simp at hu; subst hu; simpa using hc) g1 (by rw [g2] at k1; exact k1), ?_, k3, ?_⟩
          · rw [k2, g2]; simp [blockText]
          · intro hE
            exact k4 (hends (a := f :: g) (by simpa using hE))

/-- The loop over the sentences. -/
theorem writeDocument_eq {cols : Cols} {out : Str} {d : Document} (h : Built d) :
    writeDocument cols out d =
      match forM' (writeSentence cols d.text) { out } (d.sentences.map d.sentenceTokens) with
      | .error e => .error e
      | .ok st => .ok st.out := by
  have hd := h.docOk
  have hget : ∀ (k : Nat) (hk : k < d.sentences.length), ∃ ns, d.getSentence k = .ok ns ∧
      ns.tokens = d.sentenceTokens d.sentences[k] := by
    intro k hk
    unfold Document.getSentence
    rw [pyGet_nat_ok.mpr (List.getElem?_eq_getElem hk)]
    simp only [wordList_slice hd]
    have : Nav.new d.sentences.length k = .ok ⟨d.sentences.length, k⟩ := by
      unfold Nav.new
      rw [if_neg (by omega), if_neg (by omega), Int.emod_eq_of_lt (by omega) (by omega)]
      rfl
    rw [this]
    exact ⟨_, rfl, rfl⟩
  unfold writeDocument
  have key : ∀ (n : Nat) (st : WState), n ≤ d.sentences.length →
      forM' (writeNth cols d) st ((List.range d.sentences.length).drop n) =
      forM' (writeSentence cols d.text) st ((d.sentences.map d.sentenceTokens).drop n) := by
    intro n st hn
    induction hm : d.sentences.length - n generalizing n st with
    | zero =>
      rw [List.drop_eq_nil_of_le (by simp; omega), List.drop_eq_nil_of_le (by simp; omega)]
      rfl
    | succ m ih =>
      have hlt : n < d.sentences.length := by omega
      rw [List.drop_eq_getElem_cons (l := List.range d.sentences.length) (by simpa using hlt),
        List.drop_eq_getElem_cons (l := d.sentences.map d.sentenceTokens) (by simpa using hlt)]
      obtain ⟨ns, e1, e2⟩ := hget n hlt
      simp only [forM', writeNth, List.getElem_range, List.getElem_map, e1, e2]
      cases writeSentence cols d.text st (d.sentenceTokens d.sentences[n]) with
      | error e => rfl
      | ok st1 => exact ih (n + 1) st1 (by omega) (by omega)
  have := key 0 { out } (Nat.zero_le _)
  simp only [List.drop_zero] at this
  rw [this]
  cases forM' (writeSentence cols d.text) { out } (d.sentences.map d.sentenceTokens) <;> rfl

theorem writeSentences_blocks {cols : Cols} {text : Str} {sents : List (List Token)} {st st' : WState}
    (hp : st.pending = none) (hi : st.index = 0) (hE : ∀ s ∈ sents.dropLast, EndsRegular s)
    (h : forM' (writeSentence cols text) st sents = .ok st') :
    ∃ blocks, List.Forall₂ (Block text (IsRow cols text) 0) sents blocks ∧
      st'.out = st.out ++ blocks.flatMap blockText := by
  induction sents generalizing st with
  | nil => cases h; exact ⟨[], .nil, by simp⟩
  | cons s sents ih =>
    simp only [forM'] at h
    split at h
    · rename_i st1 h1
      obtain ⟨rows, g1, g2, g3, g4⟩ := (writeSentence_ok s).1 st st1 hp h1
      rw [hi] at g1
      cases sents with
      | nil =>
        cases h
        exact ⟨[rows], .cons g1 .nil, by simp [g2]⟩
      | cons s2 sents =>
        obtain ⟨blocks, k1, k2⟩ := ih (g4 (hE s (by simp))) g3 (fun x hx => hE x (by
          rw [List.dropLast_cons_of_ne_nil (by simp)]; simp [hx])) h
        exact ⟨rows :: blocks, .cons g1 k1, by rw [k2, g2]; simp⟩
    · cases h

/-- One document, written after `out`. -/
theorem writeDocument_blocks {cols : Cols} {out out' : Str} {d : Document} (hd : Built d)
    (hE : ∀ s ∈ d.sentences.dropLast, EndsRegular (d.sentenceTokens s))
    (h : writeDocument cols out d = .ok out') :
    ∃ blocks, List.Forall₂ (Block d.text (IsRow cols d.text) 0) (d.sentences.map d.sentenceTokens) blocks ∧
      out' = out ++ blocks.flatMap blockText := by
  rw [writeDocument_eq hd] at h
  split at h
  · cases h
  · rename_i st hst
    injection h with h
    obtain ⟨blocks, h1, h2⟩ := writeSentences_blocks rfl rfl (by
      intro s hs
      rw [← List.map_dropLast] at hs
      obtain ⟨x, hx, rfl⟩ := List.mem_map.mp hs
      exact hE x hx) hst
    exact ⟨blocks, h1, by rw [← h, h2]⟩

theorem Block.mono {text : Str} {P Q : Nat → Token → Bool → List Str → Prop} {k : Nat} {toks : List Token}
    {rows : List (List Str)} (h : Block text P k toks rows) (hPQ : ∀ k t b r, t ∈ toks → P k t b r → Q k t b r) :
    Block text Q k toks rows := by
  induction h with
  | nil k => exact .nil k
  | word h1 h2 _ ih =>
    exact .word h1 (hPQ _ _ _ _ (by simp) h2) (ih fun k t b r ht => hPQ k t b r (by simp [ht]))
  | multi h1 h2 h3 h4 _ ih =>
    refine .multi h1 h2 h3 ⟨h4.1, ?_⟩ (ih fun k t b r ht => hPQ k t b r (by simp [ht]))
    intro i t r ht hr
    have hmem := List.mem_of_getElem? ht
    refine hPQ _ _ _ _ ?_ (h4.2 i t r ht hr)
    rcases List.mem_cons.mp hmem with rfl | hmem
    · simp
    · simp [hmem]

/-! ### Every line the writer produces -/

/-- The writer state only holds tokens from `T` and has only written rows satisfying `Q`. -/
structure WInv (T : Token → Prop) (Q : List Str → Prop) (st : WState) : Prop where
  out : ∃ ls : List (Option (List Str)), st.out = ls.flatMap lineText ∧ ∀ r, some r ∈ ls → Q r
  pending : ∀ i f g, st.pending = some (i, f, g) → T f ∧ (∀ t ∈ g, T t) ∧ g ≠ [] ∧ 0 < i

variable {cols : Cols} {text : Str} {T : Token → Prop} {Q : List Str → Prop}

theorem lines_snoc {out : Str} {l : Option (List Str)}
    (h : ∃ ls : List (Option (List Str)), out = ls.flatMap lineText ∧ ∀ r, some r ∈ ls → Q r)
    (hl : ∀ r, l = some r → Q r) :
    ∃ ls : List (Option (List Str)), out ++ lineText l = ls.flatMap lineText ∧ ∀ r, some r ∈ ls → Q r := by
  obtain ⟨ls, h1, h2⟩ := h
  refine ⟨ls ++ [l], by simp [h1], ?_⟩
  intro r hr
  rcases List.mem_append.mp hr with hr | hr
  · exact h2 r hr
  · simp at hr; exact hl r hr.symm

variable (hrow : ∀ k t b r, T t → IsRow cols text k t b r → Q r)
  (hhead : ∀ (i j : Nat) t, T t → Q [natStr i ++ '-' :: natStr j, docText text t,
    underscore, underscore, underscore, underscore, underscore, underscore, underscore,
    if spaceAfter text t then underscore else spaceAfterNo])

include hrow in
theorem WInv.regular {st st' : WState} {t : Token} {b : Bool} (hi : WInv T Q st) (ht : T t)
    (h : writeRegular cols text b st t = .ok st') : WInv T Q st' := by
  unfold writeRegular at h
  split at h
  · cases h
  · rename_i r hr
    injection h with h
    subst h
    exact ⟨lines_snoc (l := some r) hi.out (fun r' e => by injection e with e; subst e; exact hrow _ _ _ _ ht hr), hi.pending⟩

include hrow hhead in
theorem WInv.multiword {st st' : WState} {i : Nat} {f : Token} {g : List Token} (hi : WInv T Q st) (hf : T f)
    (hg : ∀ t ∈ g, T t) (hgne : g ≠ []) (hpos : 0 < i)
    (h : writeMultiword cols text st i f g = .ok st') : WInv T Q st' := by
  have hlen := List.length_pos_iff.mpr hgne
  unfold writeMultiword at h
  have e : ((i : Nat) : Int) + (g.length : Nat) - 1 = ((i + g.length - 1 : Nat) : Int) := by omega
  rw [e, intStr_nat] at h
  have hi0 : WInv T Q { st with out := st.out ++ lineText (some [natStr i ++ '-' :: natStr (i + g.length - 1), docText text f,
    underscore, underscore, underscore, underscore, underscore, underscore, underscore,
    if spaceAfter text f then underscore else spaceAfterNo]) } :=
    ⟨lines_snoc hi.out (fun r' e => by injection e with e; subst e; exact hhead _ _ _ hf), hi.pending⟩
  clear hi hgne hpos hlen e
  simp only [lineText] at hi0 h
  generalize ({ st with out := _ } : WState) = st0 at h hi0
  induction g generalizing st0 with
  | nil => cases h; exact hi0
  | cons t g ih =>
    simp only [forM'] at h
    split at h
    · rename_i st1 h1
      exact ih (fun x hx => hg x (by simp [hx])) st1 h (hi0.regular hrow (hg t (by simp)) h1)
    · cases h

include hrow in
theorem WInv.tokenRegular {st st' : WState} {t : Token} (hi : WInv T Q st) (ht : T t)
    (h : writeTokenRegular cols text st t = .ok st') : WInv T Q st' := by
  unfold writeTokenRegular at h
  split at h
  · injection h with h
    subst h
    refine ⟨hi.out, ?_⟩
    intro i f g e
    simp only [Option.some.injEq, Prod.mk.injEq] at e
    obtain ⟨rfl, rfl, rfl⟩ := e
    exact ⟨ht, by simpa using ht, by simp, by omega⟩
  · exact WInv.regular (st := { st with pending := none }) hrow ⟨hi.out, by simp⟩ ht h

include hrow hhead in
theorem WInv.token {st st' : WState} {t : Token} (hi : WInv T Q st) (ht : T t)
    (h : writeToken cols text st t = .ok st') : WInv T Q st' := by
  unfold writeToken at h
  split at h
  · exact hi.tokenRegular hrow ht h
  · rename_i i f g hp
    obtain ⟨p1, p2, p3, p4⟩ := hi.pending i f g hp
    split at h
    · injection h with h
      subst h
      refine ⟨hi.out, ?_⟩
      intro i' f' g' e
      simp only [Option.some.injEq, Prod.mk.injEq] at e
      obtain ⟨rfl, rfl, rfl⟩ := e
      refine ⟨p1, ?_, by simp, p4⟩
      intro u hu
      rcases List.mem_append.mp hu with hu | hu
      · exact p2 u hu
      · simp at hu; subst hu; exact ht
    · split at h
      · cases h
      · rename_i st1 h1
        exact (hi.multiword hrow hhead p1 p2 p3 p4 h1).tokenRegular hrow ht h

include hrow hhead in
theorem WInv.sentence {st st' : WState} {toks : List Token} (hi : WInv T Q st) (ht : ∀ t ∈ toks, T t)
    (h : writeSentence cols text st toks = .ok st') : WInv T Q st' := by
  unfold writeSentence at h
  split at h
  · cases h
  · rename_i st1 h1
    have hi1 : WInv T Q st1 := by
      clear h
      induction toks generalizing st with
      | nil => cases h1; exact hi
      | cons t toks ih =>
        simp only [forM'] at h1
        split at h1
        · rename_i st2 h2
          exact ih (hi.token hrow hhead (ht t (by simp)) h2) (fun x hx => ht x (by simp [hx])) h1
        · cases h1
    unfold writeEnd at h
    split at h
    · injection h with h
      subst h
      rename_i hp
      exact ⟨lines_snoc (l := none) hi1.out (by simp), by simp [hp]⟩
    · rename_i i f g hp
      obtain ⟨p1, p2, p3, p4⟩ := hi1.pending i f g hp
      split at h
      · cases h
      · rename_i st2 h2
        injection h with h
        subst h
        have hi2 := hi1.multiword hrow hhead p1 p2 p3 p4 h2
        exact ⟨lines_snoc (l := none) hi2.out (by simp), hi2.pending⟩

theorem sentenceTokens_mem {d : Document} {s : Sentence} {t : Token} (h : t ∈ d.sentenceTokens s) : t ∈ d.tokens :=
  List.mem_of_mem_drop (List.mem_of_mem_take h)

/-- Every line of the output is a row satisfying `Q` or blank, if all rows of words and all range lines
satisfy `Q`. -/
theorem writeToStr_lines {columns : Cols} {Q : List Str → Prop} {docs : List Document} (hb : ∀ d ∈ docs, Built d)
    (hrow : ∀ d ∈ docs, ∀ k, ∀ t ∈ d.tokens, ∀ b r, IsRow (withHead columns) d.text k t b r → Q r)
    (hhead : ∀ d ∈ docs, ∀ (i j : Nat), ∀ t ∈ d.tokens, Q [natStr i ++ '-' :: natStr j, docText d.text t,
      underscore, underscore, underscore, underscore, underscore, underscore, underscore,
      if spaceAfter d.text t then underscore else spaceAfterNo])
    {out : Str} (h : writeToStr columns docs = .ok out) :
    ∃ ls : List (Option (List Str)), out = ls.flatMap lineText ∧ ∀ r, some r ∈ ls → Q r := by
  unfold writeToStr at h
  have h0 : ∃ ls : List (Option (List Str)), ([] : Str) = ls.flatMap lineText ∧ ∀ r, some r ∈ ls → Q r :=
    ⟨[], rfl, by simp⟩
  generalize ([] : Str) = out0 at h h0
  induction docs generalizing out0 with
  | nil => cases h; exact h0
  | cons d docs ih =>
    simp only [forM'] at h
    split at h
    · rename_i out1 h1
      refine ih (fun x hx => hb x (by simp [hx])) (fun x hx => hrow x (by simp [hx]))
        (fun x hx => hhead x (by simp [hx])) out1 h ?_
      rw [writeDocument_eq (hb d (by simp))] at h1
      split at h1
      · cases h1
      · rename_i st hst
        injection h1 with h1
        subst h1
        have hall : ∀ s ∈ d.sentences.map d.sentenceTokens, ∀ t ∈ s, t ∈ d.tokens := by
          intro s hs t ht
          obtain ⟨x, _, rfl⟩ := List.mem_map.mp hs
          exact sentenceTokens_mem ht
        have hi0 : WInv (· ∈ d.tokens) Q { out := out0 } := ⟨h0, by simp⟩
        clear h h0
        generalize d.sentences.map d.sentenceTokens = ss at hst hall
        generalize ({ out := out0 } : WState) = st0 at hst hi0
        induction ss generalizing st0 with
        | nil => cases hst; exact hi0.out
        | cons s ss ih2 =>
          simp only [forM'] at hst
          split at hst
          · rename_i st1 h1
            refine ih2 (fun x hx => hall x (by simp [hx])) st1 hst ?_
            exact hi0.sentence (fun k t b r ht => hrow d (by simp) k t ht b r)
              (fun i j t ht => hhead d (by simp) i j t ht) (hall s (by simp)) h1
          · cases hst
    · cases h

end Verif
