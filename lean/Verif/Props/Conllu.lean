import Verif.Proofs.Reader2
import Verif.Props.Datamodel

/-!
# Properties C16–C18: the CoNLL-U reader
-/

namespace Verif

/-! ### Sample input used by the examples -/

/-- Two sentences; the first one has a multiword token. -/
def sampleInput : Str :=
  ("# text\n1-2\tdel\t_\t_\t_\t_\t_\t_\t_\tSpaceAfter=No\n" ++
   "1\tde\tde\tADP\t_\t_\t2\tcase\t_\t_\n2\tel\tel\tDET\t_\tA=b\t0\troot\t_\t_\n" ++
   "3\tx\t_\tX\t_\t_\t2\tdep\t_\t_\n\n1\ty\t_\tX\t_\t_\t0\troot\t_\tSpaceAfter=No\n\n").toList

/-- Text and number of sentences of the yielded documents, and the error. -/
def outline (r : Res (List Document × Option Err)) : Res (List (Str × Nat) × Option Err) :=
  r.map fun r => (r.1.map fun d => (d.text, d.sentences.length), r.2)

/-- The reader accepts `sampleInput`, so the hypotheses below can be met. -/
example : outline (readFromStr 50 defaultCols sampleInput) = .ok ([("delx y".toList, 2)], none) := by
  decide +kernel

example : outline (readFromStr 1 defaultCols sampleInput) =
    .ok ([("delx ".toList, 1), ("y".toList, 1)], none) := by
  decide +kernel

theorem readFromStr_ok {limit : Int} {columns : Cols} {text : Str} {r : List Document × Option Err}
    (h : readFromStr limit columns text = .ok r) : 0 < limit.toNat ∧
    readLoop limit.toNat (withHead columns) {} ((fileLines text).map (stripBy isEol)) = r := by
  unfold readFromStr at h
  split at h
  · injection h with h
    exact ⟨by omega, h⟩
  · cases h

/-- The reader accepts exactly the texts of the grammar whose documents pass validation, and yields
the documents of consecutive groups of sentences.  (Grammar: `SentLines`; grouping: `Chunked`.) -/
theorem C16_accepts_iff {limit : Int} {columns : Cols} {text : Str} {docs : List Document} :
    readFromStr limit columns text = .ok (docs, none) ↔
      0 < limit ∧ ∃ sents chunks, SentLines (withHead columns) (contentLines text) sents ∧
        Chunked limit.toNat sents chunks ∧ List.Forall₂ DocRaw chunks docs := by
  constructor
  · intro h
    obtain ⟨hpos, h⟩ := readFromStr_ok h
    exact ⟨by omega, (read_iff hpos).mp h⟩
  · rintro ⟨hpos, h⟩
    unfold readFromStr
    rw [if_pos hpos, (read_iff (by omega)).mpr h]

theorem DocRaw.sentences {c : List (List Item)} {d : Document} (h : DocRaw c d) (hne : c ≠ []) :
    d.sentences.length = c.length := (h.docOf hne).bounds.length

theorem forall₂_dropLast {α β : Type} {R : α → β → Prop} {a : List α} {b : List β}
    (h : List.Forall₂ R a b) : List.Forall₂ R a.dropLast b.dropLast := by
  rw [List.dropLast_eq_take, List.dropLast_eq_take, h.length_eq]
  exact List.forall₂_take _ h

theorem forall₂_exists_left {α β : Type} {R : α → β → Prop} {a : List α} {b : List β}
    (h : List.Forall₂ R a b) {y : β} (hy : y ∈ b) : ∃ x ∈ a, R x y := by
  induction h with
  | nil => simp at hy
  | cons h1 _ ih =>
    rcases List.mem_cons.mp hy with rfl | hy
    · exact ⟨_, by simp, h1⟩
    · obtain ⟨x, hx, hr⟩ := ih hy
      exact ⟨x, by simp [hx], hr⟩

/-- Sizes of the documents of an accepted text. -/
theorem C16_chunk_sizes {limit : Int} {columns : Cols} {text : Str} {docs : List Document}
    (h : readFromStr limit columns text = .ok (docs, none)) :
    (∀ d ∈ docs, 0 < d.sentences.length ∧ (d.sentences.length : Int) ≤ limit) ∧
    (∀ d ∈ docs.dropLast, (d.sentences.length : Int) = limit) ∧
    (docs.map fun d => d.sentences.length).sum = (contentLines text).count [] := by
  obtain ⟨hpos, sents, chunks, h1, h2, h3⟩ := C16_accepts_iff.mp h
  have hlen : ∀ c ∈ chunks, ∀ d, DocRaw c d → d.sentences.length = c.length :=
    fun c hc d hd => hd.sentences (h2.size c hc).1
  refine ⟨?_, ?_, ?_⟩
  · intro d hd
    obtain ⟨c, hc, hr⟩ := forall₂_exists_left h3 hd
    have h4 := h2.size c hc
    have h5 := hlen c hc d hr
    have := List.length_pos_iff.mpr h4.1
    have := h4.2
    omega
  · intro d hd
    obtain ⟨c, hc, hr⟩ := forall₂_exists_left (forall₂_dropLast h3) hd
    have h4 := h2.full c hc
    have h5 := hlen c (List.dropLast_subset _ hc) d hr
    omega
  · rw [h1.count_blank, ← h2.flatten, List.length_flatten]
    congr 1
    clear h h1 h2
    induction h3 with
    | nil => rfl
    | @cons c d cs ds h4 h5 ih =>
      simp only [List.map_cons]
      rw [hlen c (by simp) d h4, ih (fun c hc => hlen c (by simp [hc]))]

/-- On an error, what was yielded before it are full documents of a correct prefix of the input. -/
theorem C16_before_an_error {limit : Int} {columns : Cols} {text : Str} {docs : List Document} {e : Err}
    (h : readFromStr limit columns text = .ok (docs, some e)) :
    (∀ d ∈ docs, (d.sentences.length : Int) = limit) ∧
    (docs = [] ∨ ∃ pre rest sents chunks, contentLines text = pre ++ rest ∧
      SentLines (withHead columns) pre sents ∧ chunks.flatten = sents ∧
      (∀ c ∈ chunks, (c.length : Int) = limit) ∧ List.Forall₂ DocRaw chunks docs) := by
  obtain ⟨hpos, h⟩ := readFromStr_ok h
  rw [readLoop_comments] at h
  have hnc : ∀ l ∈ contentLines text, l.head? ≠ some '#' := by
    intro l hl
    unfold contentLines at hl
    rw [List.mem_filter] at hl
    simpa using hl.2
  rcases readLoop_prefix hpos _ (Nat.le_refl _) hnc RInv.init (by simpa using hpos) h with
    rfl | ⟨pre, rest, new, chunks, g1, g2, g3, g4, g5⟩
  · exact ⟨by simp, .inl rfl⟩
  · refine ⟨?_, .inr ⟨pre, rest, new, chunks, g1, g2, by simpa using g3, ?_, g5⟩⟩
    · intro d hd
      obtain ⟨c, hc, hr⟩ := forall₂_exists_left g5 hd
      have h5 := hr.sentences (fun e => by have := g4 c hc; rw [e] at this; simp at this; omega)
      have := g4 c hc
      omega
    · intro c hc
      have := g4 c hc
      omega

/-- An error after a complete document: the second sentence has a bad HEAD. -/
example : outline (readFromStr 1 defaultCols
    "1\ta\t_\tX\t_\t_\t0\troot\t_\t_\n\n1\tb\t_\tX\t_\t_\t7\tdep\t_\t_\n\n".toList) =
    .ok ([("a ".toList, 1)], some .value) := by
  decide +kernel

/-- Whatever the input, every yielded document satisfies C01, C03 and C07. -/
theorem C17_yielded_documents_valid {limit : Int} {columns : Cols} {text : Str}
    {docs : List Document} {e : Option Err}
    (h : readFromStr limit columns text = .ok (docs, e)) {d : Document} (hd : d ∈ docs) :
    (∀ (i j : Nat) (hi : i < d.tokens.length) (hj : j < d.tokens.length), i < j →
      Before d.tokens[i] d.tokens[j]) ∧
    Tiles 0 d.sentences d.tokens.length ∧
    (d.sentences.map d.sentenceTokens).flatten = d.tokens ∧
    ∀ s ∈ d.sentences, Headless (d.sentenceTokens s) ∨ IsTree (d.sentenceTokens s) := by
  obtain ⟨_, h⟩ := readFromStr_ok h
  have hb := readLoop_built limit.toNat (withHead columns) {} ((fileLines text).map (stripBy isEol)) d
    (by rw [h]; exact hd)
  obtain ⟨t, toks, ss, hn⟩ := hb
  have h3 := C03_sentences_partition (d := d) ⟨t, toks, ss, true, hn⟩
  exact ⟨(C01_tokens_ordered hn).2.1, h3.1, h3.2.2.2, (C07_validation_iff_forest.mp hn).2⟩

/-- A surface form does not begin with white space. -/
def NoLeadingSpace (it : Item) : Prop := ∀ c, it.surface.text.head? = some c → isSpace c = false

/-- Text, forms and spacing of the documents of an accepted text: `d` belongs to a group of sentences
`c`; if `it` is a surface unit of the group and `w` its `j`-th word, then the token at that place has
the unit's FORM as `doc_text`, the word's FORM as `text`, and `space_after` as its line says, unless the
unit is the last one (then it is always true) or the next FORM begins with white space. -/
theorem C18_text_from_forms {limit : Int} {columns : Cols} {text : Str} {docs : List Document}
    (h : readFromStr limit columns text = .ok (docs, none)) :
    ∃ sents chunks, SentLines (withHead columns) (contentLines text) sents ∧ chunks.flatten = sents ∧
      List.Forall₂ (fun (c : List (List Item)) (d : Document) =>
        d.text = c.flatten.flatMap (fun it => it.surface.text ++ spaceIf it.surface.spaceAfter) ∧
        d.tokens.length = wordCount c.flatten ∧
        ∀ (a b : List Item) (it : Item) (j : Nat) (w : PTok), c.flatten = a ++ it :: b →
          it.words[j]? = some w → ∃ t, d.tokens[wordCount a + j]? = some t ∧
            docText d.text t = it.surface.text ∧ tokText d.text t = w.text ∧
            t.pos = w.pos ∧ t.lemma' = w.lemma' ∧ t.deprel = w.deprel ∧
            t.headSent = w.head.map (· - 1) ∧
            (b = [] → spaceAfter d.text t = true) ∧
            (∀ it2 b', b = it2 :: b' → NoLeadingSpace it2 →
              spaceAfter d.text t = it.surface.spaceAfter)) chunks docs := by
  obtain ⟨hpos, sents, chunks, h1, h2, h3⟩ := C16_accepts_iff.mp h
  refine ⟨sents, chunks, h1, h2.flatten, ?_⟩
  rw [List.forall₂_iff_get] at h3 ⊢
  refine ⟨h3.1, fun i hi hi' => ?_⟩
  have hdoc := (h3.2 i hi hi').docOf (h2.size _ (by simp)).1
  have hsurf : ∀ it ∈ (chunks.get ⟨i, hi⟩).flatten, it.surface.text ≠ [] := by
    intro it hit
    refine h1.surface_ne it ?_
    rw [← h2.flatten]
    obtain ⟨s, hs, hit⟩ := List.mem_flatten.mp hit
    exact List.mem_flatten.mpr ⟨s, List.mem_flatten.mpr ⟨_, List.get_mem _ _, hs⟩, hit⟩
  generalize chunks.get ⟨i, hi⟩ = c at hdoc hsurf
  generalize docs.get ⟨i, hi'⟩ = d at hdoc
  refine ⟨hdoc.text, hdoc.tokens.length, ?_⟩
  intro a b it j w hc hw
  have htoks := hdoc.tokens
  rw [hc] at htoks
  obtain ⟨ts, g1, g2⟩ := htoks.at
  obtain ⟨hj, hjw⟩ := List.getElem?_eq_some_iff.mp hw
  have htext : d.text = surfaceText a ++ (it.surface.text ++ (spaceIf it.surface.spaceAfter ++ surfaceText b)) := by
    rw [hdoc.text, hc, surfaceText_append, surfaceText_cons]
    simp [Item.piece]
  rw [Nat.zero_add] at g1
  obtain ⟨t, sub, repl, ht, hof, hrepl⟩ : ∃ t sub repl, ts[j]? = some t ∧
      TokenOf (surfaceText a).length ((surfaceText a).length + it.surface.text.length) sub repl w t ∧
      repl.getD it.surface.text = w.text := by
    cases it with
    | word p =>
      obtain ⟨t, rfl, hof⟩ := g1
      simp [Item.words] at hj
      subst hj
      simp [Item.words] at hw
      subst hw
      exact ⟨t, 0, none, rfl, hof, rfl⟩
    | multi hd ws =>
      have hl := g1.1
      simp [Item.words] at hj hw
      have hj' : j < ts.length := by omega
      exact ⟨ts[j], j, _, List.getElem?_eq_getElem hj', g1.2 j w _ hw (List.getElem?_eq_getElem hj'), rfl⟩
  have hdt : docText d.text t = it.surface.text := by
    unfold docText
    rw [hof.start, hof.stop, htext]
    exact slice_mid _ _ _
  refine ⟨t, by rw [g2 j hj, ht], hdt, ?_, hof.pos, hof.lemma', hof.deprel, hof.headSent, ?_, ?_⟩
  · unfold tokText
    rw [hof.repl, hdt, hrepl]
  · rintro rfl
    unfold spaceAfter
    rw [hof.stop, htext]
    cases it.surface.spaceAfter with
    | false => simp [spaceIf, surfaceText]
    | true =>
      have : (surfaceText a ++ (it.surface.text ++ (spaceIf true ++ surfaceText [])))[(surfaceText a).length +
          it.surface.text.length]? = some ' ' := by
        rw [← List.append_assoc, List.getElem?_append_right (by simp)]
        simp [spaceIf]
      rw [this]
      simp [isSpace]
  · rintro it2 b' rfl hns
    have hne : it2.surface.text ≠ [] := hsurf it2 (by rw [hc]; simp)
    unfold spaceAfter
    rw [hof.stop, htext]
    have hget : (surfaceText a ++ (it.surface.text ++ (spaceIf it.surface.spaceAfter ++
        surfaceText (it2 :: b'))))[(surfaceText a).length + it.surface.text.length]? =
        (spaceIf it.surface.spaceAfter ++ surfaceText (it2 :: b')).head? := by
      rw [← List.append_assoc, List.getElem?_append_right (by simp)]
      simp [List.head?_eq_getElem?]
    have hlen : ((surfaceText a).length + it.surface.text.length == (surfaceText a ++ (it.surface.text ++
        (spaceIf it.surface.spaceAfter ++ surfaceText (it2 :: b')))).length) = false := by
      have := List.length_pos_iff.mpr hne
      rw [beq_eq_false_iff_ne]
      simp only [List.length_append, surfaceText_cons, Item.piece]
      omega
    rw [hget, hlen]
    cases it.surface.spaceAfter with
    | true => simp [spaceIf, isSpace]
    | false =>
      obtain ⟨x, xs, hx⟩ := List.exists_cons_of_ne_nil hne
      have hx' : (spaceIf false ++ surfaceText (it2 :: b')).head? = some x := by
        simp [spaceIf, surfaceText_cons, Item.piece, hx]
      rw [hx']
      simpa using hns x (by simp [hx])

/-- The exceptions are needed: the last token loses `SpaceAfter=No`, and a FORM that begins with white
space makes the previous token look as if a space followed. -/
theorem C18_exceptions_needed :
    ((readFromStr 50 defaultCols "1\ta\t_\tX\t_\t_\t0\troot\t_\tSpaceAfter=No\n\n".toList).map fun r =>
      r.1.map fun d => d.tokens.map (spaceAfter d.text)) = .ok [[true]] ∧
    ((readFromStr 50 defaultCols ("1\ta\t_\tX\t_\t_\t0\troot\t_\tSpaceAfter=No\n" ++
        "2\t b\t_\tX\t_\t_\t1\tdep\t_\t_\n\n").toList).map fun r =>
      r.1.map fun d => d.tokens.map (spaceAfter d.text)) = .ok [[true, true]] := by
  decide +kernel

end Verif
