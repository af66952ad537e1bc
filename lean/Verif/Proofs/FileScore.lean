import Verif.Proofs.FileLoad

/-! # Heads and relations of two treebanks with the same words -/

namespace Verif

/-- The rows show the heads and relations as they are written with the given columns. -/
def ShowsArc (cols : Cols) (R : Bool → Nat → Token → List Str → Prop) : Prop :=
  ∀ m k t r, R m k t r → pyInt (colOf r colHEAD) = .ok (writtenHead cols k t) ∧ colOf r colDEPREL = writtenRelation cols t

theorem LoadedRow.showsArc (cols : Cols) (text : Str) : ShowsArc cols (LoadedRow cols text) :=
  fun _ _ _ _ h => ⟨h.head, h.deprel⟩

theorem FileRow.showsForm (text : Str) : ShowsForm (FileRow text) text := fun _ _ _ _ h => h.form

theorem FileRow.showsArc (text : Str) : ShowsArc (withHead defaultCols) (FileRow text) := by
  intro m k t r h
  obtain ⟨i, h1, h2⟩ := h.head
  refine ⟨?_, ?_⟩
  · rw [h1]
    unfold writtenHead
    rw [if_pos (by decide), h2]
    simp
  · rw [h.deprel]
    unfold writtenRelation
    rw [if_pos ⟨by decide, by rw [h2]; simp⟩]
    unfold written
    rw [if_pos (by decide)]

/-- A row with its head and relation. -/
def RowArc (r : List Str) (a : Int × Str) : Prop := pyInt (colOf r colHEAD) = .ok a.1 ∧ colOf r colDEPREL = a.2

theorem writtenArcs_append (cols : Cols) (k : Nat) (a b : List Token) :
    writtenArcs cols k (a ++ b) = writtenArcs cols k a ++ writtenArcs cols (k + a.length) b := by
  induction a generalizing k with
  | nil => rfl
  | cons t a ih =>
    simp only [List.cons_append, writtenArcs, ih, List.length_cons]
    rw [show k + 1 + a.length = k + (a.length + 1) by omega]

theorem writtenArcs_length (cols : Cols) (k : Nat) (a : List Token) : (writtenArcs cols k a).length = a.length := by
  induction a generalizing k with
  | nil => rfl
  | cons t a ih => simp [writtenArcs, ih]

theorem wordRows_arcs {cols : Cols} {R : Bool → Nat → Token → List Str → Prop} (hR : ShowsArc cols R) {m : Bool} :
    ∀ {k : Nat} {toks : List Token} {rs : List (List Str)}, WordRows (fun k t _ r => R m k t r) k toks rs →
    List.Forall₂ RowArc rs (writtenArcs cols k toks)
  | _, [], [], _ => .nil
  | _, [], _ :: _, h => by have := h.1; simp at this
  | _, _ :: _, [], h => by have := h.1; simp at this
  | k, t :: toks, r :: rs, h => by
    refine .cons (hR _ _ _ _ (h.2 0 t r rfl rfl)) (wordRows_arcs hR (m := m) ⟨by simpa using h.1, ?_⟩)
    intro i u q h1 h2
    have := h.2 (i + 1) u q h1 h2
    rw [show k + 1 + i = k + (i + 1) by omega]
    exact this

theorem tokensAs_arcs {cols : Cols} {R : Bool → Nat → Token → List Str → Prop} (hR : ShowsArc cols R) {text : Str} {k : Nat}
    {toks : List Token} {us : List UdToken} (h : TokensAs R text k toks us) :
    List.Forall₂ RowArc (rowsOf us) (writtenArcs cols k toks) := by
  induction h with
  | nil => exact .nil
  | word _ h1 _ ih => exact .cons (hR _ _ _ _ h1) ih
  | @multi k t g toks rs us _ _ _ h4 _ ih =>
    have e : t :: (g ++ toks) = (t :: g) ++ toks := rfl
    rw [e, writtenArcs_append]
    exact List.rel_append (wordRows_arcs hR h4) ih

/-- The arcs of sentences with the number of words before the sentence. -/
def placeArcs : Nat → List (List (Int × Str)) → List (Nat × Int × Str)
  | _, [] => []
  | o, s :: ss => s.map (fun a => (o, a)) ++ placeArcs (o + s.length) ss

theorem placeArcs_snd (ss : List (List (Int × Str))) : ∀ o, (placeArcs o ss).map Prod.snd = ss.flatten := by
  induction ss with
  | nil => exact fun _ => rfl
  | cons s ss ih => intro o; simp [placeArcs, ih, Function.comp_def]

theorem placeArcs_same : ∀ {ss ss' : List (List (Int × Str))}, List.Forall₂ (fun s s' => s.length = s'.length) ss ss' →
    ∀ o, List.Forall₂ (fun a b => a.1 = b.1) (placeArcs o ss) (placeArcs o ss') := by
  intro ss ss' h
  induction h with
  | nil => exact fun _ => .nil
  | @cons s s' _ _ h _ ih =>
    intro o
    refine List.rel_append ?_ (h ▸ ih (o + s.length))
    rw [List.forall₂_map_left_iff, List.forall₂_map_right_iff]
    clear ih
    induction s generalizing s' with
    | nil => cases s' with
      | nil => exact .nil
      | cons => simp at h
    | cons x s ih => cases s' with
      | nil => simp at h
      | cons y s' => exact .cons rfl (ih (by simpa using h))

/-- The parent of a word for a head number. -/
def LinkIs (o : Nat) (h : Int) (l : Link) : Prop := (h = 0 → l = .none) ∧ (0 < h → l = .word (o + (h.toNat - 1)))

theorem LinkIs.agree {o : Nat} {h h' : Int} {l l' : Link} (a : LinkIs o h l) (b : LinkIs o h' l') (h0 : 0 ≤ h)
    (h0' : 0 ≤ h') : l = l' ↔ h = h' := by
  constructor
  · intro e
    subst e
    rcases Int.lt_or_eq_of_le h0 with c | c <;> rcases Int.lt_or_eq_of_le h0' with d | d
    · have := (a.2 c).symm.trans (b.2 d)
      injection this with this
      omega
    · have := (a.2 c).symm.trans (b.1 d.symm); cases this
    · have := (a.1 c.symm).symm.trans (b.2 d); cases this
    · omega
  · intro e
    subst e
    rcases Int.lt_or_eq_of_le h0 with c | c
    · rw [a.2 c, b.2 c]
    · rw [a.1 c.symm, b.1 c.symm]

theorem links_place {sents : List (List UdToken)} {arcs : List (List (Int × Str))}
    (h : List.Forall₂ (fun us s => List.Forall₂ RowArc (rowsOf us) s) sents arcs) : ∀ {o : Nat} {ls : List Link},
    LinksOf o sents ls → List.Forall₂ (fun a l => LinkIs a.1 a.2.1 l) (placeArcs o arcs) ls := by
  induction h with
  | nil => intro o ls h; cases h; exact .nil
  | @cons us s sents arcs a _ ih =>
    rintro o ls ⟨x, y, rfl, hx, hy⟩
    refine List.rel_append ?_ (ih (a.length_eq ▸ hy))
    rw [List.forall₂_map_left_iff]
    rw [List.forall₂_iff_get] at a hx ⊢
    refine ⟨a.1.symm.trans hx.1, fun i h1 h2 => ?_⟩
    have h3 : i < (rowsOf us).length := a.1 ▸ h1
    have q := (a.2 i h3 h1).1
    obtain ⟨h, z1, z2, z3, _⟩ := hx.2 i h3 h2
    rw [z1] at q
    injection q with q
    rw [q] at z2 z3
    exact ⟨z2, z3⟩

/-- The words with the places of their heads and their relations. -/
theorem words_arcs {sents : List (List UdToken)} {ud : UD} (hu : UdOf sents ud) {arcs : List (List (Int × Str))}
    (h : List.Forall₂ (fun us s => List.Forall₂ RowArc (rowsOf us) s) sents arcs) :
    List.Forall₂ (fun a w => LinkIs a.1 a.2.1 w.parent ∧ colOf w.columns colDEPREL = a.2.2) (placeArcs 0 arcs) ud.words := by
  have h1 := links_place h hu.links
  rw [List.forall₂_map_right_iff] at h1
  have h2 : List.Forall₂ (fun (a : Nat × Int × Str) r => colOf r colDEPREL = a.2.2) (placeArcs 0 arcs) (ud.words.map UDWord.columns) := by
    have e : ud.words.map UDWord.columns = rowsOf sents.flatten := by
      rw [← tokWords_rows _ 0, ← hu.words, List.map_map]; rfl
    have e2 : List.Forall₂ (fun (a : Int × Str) r => colOf r colDEPREL = a.2) arcs.flatten (rowsOf sents.flatten) := by
      clear hu h1 e
      induction h with
      | nil => exact .nil
      | cons a _ ih =>
        rw [List.flatten_cons, List.flatten_cons, rowsOf, List.flatMap_append]
        exact List.rel_append (a.flip.imp fun _ _ h => h.2) ih
    rw [← placeArcs_snd arcs 0, List.forall₂_map_left_iff] at e2
    rw [e]; exact e2
  rw [List.forall₂_map_right_iff] at h2
  rw [List.forall₂_iff_get] at h1 h2 ⊢
  exact ⟨h1.1, fun i a b => ⟨h1.2 i a b, h2.2 i a b⟩⟩

theorem agreeing_pairs {α β : Type} {R : α → UDWord → Prop} {R' : β → UDWord → Prop} {P : UDWord → UDWord → Prop}
    {Q : α → β → Prop} {f : α → β → Prop} [∀ a b, Decidable (f a b)]
    (hP : ∀ a b w w', Q a b → R a w → R' b w' → (P w w' ↔ f a b)) {as : List α} {bs : List β} {ws ws' : List UDWord}
    (hq : List.Forall₂ Q as bs) (h : List.Forall₂ R as ws) (h' : List.Forall₂ R' bs ws') :
    agreeing P ws ws' = ((as.zip bs).filter fun p => f p.1 p.2).length := by
  unfold agreeing
  induction hq generalizing ws ws' with
  | nil => cases h; simp
  | @cons x y _ _ q _ ih =>
    cases h with | cons a a' =>
    cases h' with | cons b b' =>
    have hp := hP _ _ _ _ q a b
    simp only [List.zip_cons_cons, List.filter_cons, decide_eq_true_eq]
    by_cases hf : f x y
    · rw [if_pos (by simpa using hp.2 hf), if_pos hf, List.length_cons, List.length_cons, ih a' b']
    · rw [if_neg (fun h => hf (hp.1 (by simpa using h))), if_neg hf, ih a' b']

theorem count_map {α β : Type} [DecidableEq β] (g : α → β) (as bs : List α) :
    ((as.zip bs).filter fun p => g p.1 = g p.2).length = sameCount (as.map g) (bs.map g) := by
  unfold sameCount
  rw [List.zip_map, List.filter_map, List.length_map]
  rfl

theorem sentence_arcs {cols : Cols} {R : Str → Bool → Nat → Token → List Str → Prop} (hR : ∀ text, ShowsArc cols (R text))
    {ps : List (Str × List Token)} {sents : List (List UdToken)}
    (h : List.Forall₂ (fun (p : Str × List Token) us => TokensAs (R p.1) p.1 0 p.2 us) ps sents) :
    List.Forall₂ (fun us s => List.Forall₂ RowArc (rowsOf us) s) sents (ps.map fun p => writtenArcs cols 0 p.2) := by
  rw [List.forall₂_map_right_iff]
  exact h.flip.imp fun _ _ h => tokensAs_arcs (hR _) h

/-- Evaluation of two treebanks that were made from documents with the same words. -/
theorem eval_documents {lower : Str → Str} {columns columns' : Cols} {R R' : Str → Bool → Nat → Token → List Str → Prop}
    (hR : ∀ text, ShowsForm (R text) text ∧ ShowsArc (withHead columns) (R text))
    (hR' : ∀ text, ShowsForm (R' text) text ∧ ShowsArc (withHead columns') (R' text))
    {gold pred : List Document} (hg : ∀ d ∈ gold, Built d) (hs : List.Forall₂ SameSkeleton gold pred)
    {ud ud' : UD} {sents sents' : List (List UdToken)} (l1 : Loaded ud) (l2 : Loaded ud') (hu : UdOf sents ud) (hu' : UdOf sents' ud')
    (h1 : List.Forall₂ (fun (p : Str × List Token) us => TokensAs (R p.1) p.1 0 p.2 us) (sentencesOf gold) sents)
    (h2 : List.Forall₂ (fun (p : Str × List Token) us => TokensAs (R' p.1) p.1 0 p.2 us) (sentencesOf pred) sents')
    (p1 : ∀ a ∈ allArcs columns gold, 0 ≤ a.1) (p2 : ∀ a ∈ allArcs columns' pred, 0 ≤ a.1) :
    ∃ m, evaluate lower ud ud' none = .ok m ∧ ud.words.length = (allTokens gold).length ∧
      (∀ cols s, (cols, s) ∈ [([colUPOS], m.upos), ([colXPOS], m.xpos), ([colFEATS], m.feats),
          ([colUPOS, colXPOS, colFEATS], m.allTags), ([colLEMMA], m.lemmas)] →
        IsScore s (allTokens gold).length (allTokens gold).length (agreeing (ColsAgree cols) ud.words ud'.words)
          (some (allTokens gold).length)) ∧
      IsScore m.uas (allTokens gold).length (allTokens gold).length
        (sameCount ((allArcs columns gold).map Prod.fst) ((allArcs columns' pred).map Prod.fst)) (some (allTokens gold).length) ∧
      IsScore m.las (allTokens gold).length (allTokens gold).length
        (sameCount (allArcs columns gold) (allArcs columns' pred)) (some (allTokens gold).length) := by
  obtain ⟨hc, hl⟩ := sameLook_of_skeleton (lower := lower) (fun t => (hR t).1) (fun t => (hR' t).1) hs hu hu' h1 h2
  obtain ⟨m, hm, _, hcols, huas, hlas⟩ := C68_wordwise (weights := none) l1 l2 hc hl
  have hn : ud.words.length = (allTokens gold).length := (words_of_loads hg hu h1).length_eq.symm
  have a1 := words_arcs hu (sentence_arcs (fun t => (hR t).2) h1)
  have a2 := words_arcs hu' (sentence_arcs (fun t => (hR' t).2) h2)
  have hq : List.Forall₂ (fun a b : Nat × Int × Str => a.1 = b.1)
      (placeArcs 0 ((sentencesOf gold).map fun p => writtenArcs (withHead columns) 0 p.2))
      (placeArcs 0 ((sentencesOf pred).map fun p => writtenArcs (withHead columns') 0 p.2)) := by
    refine placeArcs_same ?_ 0
    rw [List.forall₂_map_left_iff, List.forall₂_map_right_iff]
    exact (skeleton_sentences hs).imp fun a b h => by
      rw [writtenArcs_length, writtenArcs_length]; exact h.2.length_eq
  have s1 : (placeArcs 0 ((sentencesOf gold).map fun p => writtenArcs (withHead columns) 0 p.2)).map Prod.snd = allArcs columns gold := by
    rw [placeArcs_snd, allArcs, List.flatMap_def]
  have s2 : (placeArcs 0 ((sentencesOf pred).map fun p => writtenArcs (withHead columns') 0 p.2)).map Prod.snd = allArcs columns' pred := by
    rw [placeArcs_snd, allArcs, List.flatMap_def]
  generalize placeArcs 0 ((sentencesOf gold).map fun p => writtenArcs (withHead columns) 0 p.2) = A at *
  generalize placeArcs 0 ((sentencesOf pred).map fun p => writtenArcs (withHead columns') 0 p.2) = B at *
  have n1 : ∀ a ∈ A, 0 ≤ a.2.1 := fun a ha => p1 a.2 (by rw [← s1]; exact List.mem_map_of_mem ha)
  have n2 : ∀ a ∈ B, 0 ≤ a.2.1 := fun a ha => p2 a.2 (by rw [← s2]; exact List.mem_map_of_mem ha)
  have a1' : List.Forall₂ (fun a (w : UDWord) => 0 ≤ a.2.1 ∧ LinkIs a.1 a.2.1 w.parent ∧ colOf w.columns colDEPREL = a.2.2) A ud.words := by
    rw [List.forall₂_iff_get] at a1 ⊢
    exact ⟨a1.1, fun i x y => ⟨n1 _ (List.get_mem _ _), a1.2 i x y⟩⟩
  have a2' : List.Forall₂ (fun a (w : UDWord) => 0 ≤ a.2.1 ∧ LinkIs a.1 a.2.1 w.parent ∧ colOf w.columns colDEPREL = a.2.2) B ud'.words := by
    rw [List.forall₂_iff_get] at a2 ⊢
    exact ⟨a2.1, fun i x y => ⟨n2 _ (List.get_mem _ _), a2.2 i x y⟩⟩
  have c1 : agreeing (fun g s => g.parent = s.parent) ud.words ud'.words =
      sameCount ((allArcs columns gold).map Prod.fst) ((allArcs columns' pred).map Prod.fst) := by
    rw [agreeing_pairs (f := fun a b : Nat × Int × Str => a.2.1 = b.2.1) ?_ hq a1' a2']
    · rw [count_map (fun a : Nat × Int × Str => a.2.1), ← s1, ← s2, List.map_map, List.map_map]; rfl
    · rintro a b w w' q ⟨x0, x1, _⟩ ⟨y0, y1, _⟩
      rw [← q] at y1
      exact x1.agree y1 x0 y0
  have c2 : agreeing (fun g s => g.parent = s.parent ∧ ColsAgree [colDEPREL] g s) ud.words ud'.words =
      sameCount (allArcs columns gold) (allArcs columns' pred) := by
    rw [agreeing_pairs (f := fun a b : Nat × Int × Str => a.2 = b.2) ?_ hq a1' a2']
    · rw [count_map (fun a : Nat × Int × Str => a.2), ← s1, ← s2]
    · rintro a b w w' q ⟨x0, x1, x2⟩ ⟨y0, y1, y2⟩
      rw [← q] at y1
      rw [x1.agree y1 x0 y0, Prod.ext_iff]
      refine and_congr Iff.rfl ?_
      unfold ColsAgree
      rw [← x2, ← y2]
      simp
  rw [hn] at hcols huas hlas
  rw [c1] at huas
  rw [c2] at hlas
  exact ⟨m, hm, hn, hcols, huas, hlas⟩

end Verif
