import Verif.Proofs.Resave2

/-!
# Loading, saving and loading again (C112)
-/

namespace Verif

/-- Writing document after document. -/
theorem writes_again {cols : Cols} {docs docs' : List Document}
    (h : List.Forall₂ (fun d d' => ∀ o o1, writeDocument cols o d = .ok o1 → writeDocument cols o d' = .ok o1) docs docs') :
    ∀ {o out : Str}, forM' (writeDocument cols) o docs = .ok out → forM' (writeDocument cols) o docs' = .ok out := by
  induction h with
  | nil => exact fun h => h
  | @cons d d' docs docs' h1 _ ih =>
    intro o out h
    rw [forM'] at h ⊢
    cases hd : writeDocument cols o d with
    | error e => rw [hd] at h; cases h
    | ok o1 =>
      rw [hd] at h
      rw [h1 o o1 hd]
      exact ih h

/-- C112, part: take the documents of a CoNLL-U file, all of whose tokens have a head and no sentence of
which ends in a multiword token unless it is the last of its document.  They can be saved, what is saved
can be loaded, and it has the same documents, sentences and words with all their annotation.  Saving what
was loaded the second time gives, character for character, the file of the first save. -/
theorem C112_resave_partial {columns : Cols} (hcols : ∀ c ∈ defaultCols, c ∈ columns) {limit : Int} {text : Str}
    {docs : List Document} (h : readFromStr limit columns text = .ok (docs, none))
    (hheads : ∀ d ∈ docs, ∀ t ∈ d.tokens, t.headSent ≠ none)
    (hends : ∀ d ∈ docs, ∀ s ∈ d.sentences.dropLast, EndsRegular (d.sentenceTokens s)) :
    ∃ out docs', writeToStr columns docs = .ok out ∧ readFromStr limit columns out = .ok (docs', none) ∧
      List.Forall₂ (fun (d d' : Document) => d'.sentences = d.sentences ∧
        List.Forall₂ (SameWord d.text d'.text) d.tokens d'.tokens) docs docs' ∧
      writeToStr columns docs' = .ok out := by
  have hr := read_docs (hcols _ (by decide)) h
  have hpos := (C16_accepts_iff.mp h).1
  obtain ⟨hsz1, hsz2, _⟩ := C16_chunk_sizes h
  have hbw : ∀ d ∈ docs, BuiltValid d ∧ Writable d := by
    intro d hd
    obtain ⟨c, hc⟩ := hr d hd
    exact ⟨hc.builtValid, hc.writable (hheads d hd) (hends d hd)⟩
  obtain ⟨out, docs', h1, h2, h3, chunks, h4, h5⟩ := round_trip hcols hpos hbw (fun d hd => (hsz1 d hd).2) hsz2
  refine ⟨out, docs', h1, h2, h3.imp fun _ _ h => ⟨h.sentences, h.words⟩, ?_⟩
  have hF : colFEATS ∈ withHead columns := fullCols_withHead hcols _ (by decide)
  refine writes_again (docs := docs) ?_ h1
  rw [List.forall₂_iff_get] at *
  refine ⟨h3.1, fun i hi hi' o o1 ho => ?_⟩
  have hic : i < chunks.length := by omega
  have hmem : docs.get ⟨i, hi⟩ ∈ docs := List.get_mem _ _
  have hsp := h5.2 i hi hic
  have hraw := h4.2 i hic hi'
  generalize docs.get ⟨i, hi⟩ = d at *
  obtain ⟨hb, hw⟩ := hbw d hmem
  obtain ⟨c, hc⟩ := hr d hmem
  have hdoc := hc.raw.docOf hc.ne
  have hd := hb.built.docOk
  have hflat : (d.sentences.map d.sentenceTokens).flatten = d.tokens := by
    have := tiles_flatten d.tokens hd.tiles
    rw [slice_zero_length] at this
    exact this
  have hne : ∀ s ∈ d.sentences.map d.sentenceTokens, s ≠ [] := by
    intro s hs
    obtain ⟨x, hx, rfl⟩ := List.mem_map.mp hs
    have := hd.tiles.mem hx
    have hlt := x.lt
    intro e
    have := congrArg List.length e
    simp [Document.sentenceTokens, slice_length] at this
    omega
  obtain ⟨f1, f2, f3⟩ := hw.sentence_facts hd
  refine written_again hb hw hsp hraw ?_ ho hF
  refine spelled_goesOn_sents hsp f1 f2 f3 hne ?_ ?_ ?_
  · intro s hs t ht
    obtain ⟨x, _, rfl⟩ := List.mem_map.mp hs
    exact (hw.token t (sentenceTokens_mem ht)).inside
  · rw [hflat]
    have := (items_touch (pre := []) (post := []) hc.words rfl hdoc.tokens).1
    rw [List.append_nil, List.nil_append, ← hdoc.text] at this
    exact this
  · rw [hflat]
    exact docOf_last hdoc hc.words

/-- C112, part: if moreover the text of every document goes on after each of its words (the last word of
a document is not marked `SpaceAfter=No`) and no surface form begins with whitespace, then the documents
loaded the second time are equal (`==`) to the first ones. -/
theorem C112_resave_equal_partial {columns : Cols} (hcols : ∀ c ∈ defaultCols, c ∈ columns) {limit : Int} {text : Str}
    {docs : List Document} (h : readFromStr limit columns text = .ok (docs, none))
    (hheads : ∀ d ∈ docs, ∀ t ∈ d.tokens, t.headSent ≠ none)
    (hends : ∀ d ∈ docs, ∀ s ∈ d.sentences.dropLast, EndsRegular (d.sentenceTokens s))
    (hin : ∀ d ∈ docs, ∀ t ∈ d.tokens, t.stop < d.text.length)
    (hlead : ∀ d ∈ docs, ∀ t ∈ d.tokens, ∀ x, (docText d.text t).head? = some x → isSpace x = false) :
    ∃ out docs', writeToStr columns docs = .ok out ∧ readFromStr limit columns out = .ok (docs', none) ∧
      List.Forall₂ (fun (d d' : Document) => d.pyEq d' = true) docs docs' := by
  have hr := read_docs (hcols _ (by decide)) h
  have hpos := (C16_accepts_iff.mp h).1
  obtain ⟨hsz1, hsz2, _⟩ := C16_chunk_sizes h
  refine C19_round_trip_equal hcols hpos ?_ (fun d hd => (hsz1 d hd).2) hsz2 ?_ ?_ ?_
  · intro d hd
    obtain ⟨c, hc⟩ := hr d hd
    exact ⟨hc.builtValid, hc.writable (hheads d hd) (hends d hd)⟩
  · intro d hd
    obtain ⟨c, hc⟩ := hr d hd
    exact hc.spaced (hin d hd) (hlead d hd)
  · intro d hd
    obtain ⟨c, hc⟩ := hr d hd
    exact hc.extras
  · intro d hd
    obtain ⟨c, hc⟩ := hr d hd
    exact hc.roots

/-! ### the conditions are needed, and met -/

/-- Loading a file with documents of up to 50 sentences, saving it, loading what was saved. -/
def reloaded (text : Str) : Res (List Document × List Document) := do
  let r ← readFromStr 50 defaultCols text
  let out ← writeToStr defaultCols r.1
  let r' ← readFromStr 50 defaultCols out
  match r'.2 with
  | none => return (r.1, r'.1)
  | some e => throw e

namespace Demo

/-- A multiword token, a word without a space after it, two sentences. -/
def resaveFile : Str :=
  ("# a\n1-2\tdel\t_\t_\t_\t_\t_\t_\t_\t_\n1\tde\tde\tADP\t_\tA=b|C=d\t3\tcase\t_\t_\n2\tel\tel\tDET\t_\t_\t3\tdet\t_\t_\n" ++
   "3\tx\t_\tX\t_\t_\t0\troot\t_\tSpaceAfter=No\n4\t.\t_\tX\t_\t_\t3\tpunct\t_\t_\n\n1\ty\t_\tX\t_\t_\t0\troot\t_\t_\n\n").toList

end Demo

/-- The hypotheses of both theorems are met. -/
example : ((readFromStr 50 defaultCols Demo.resaveFile).toOption.any fun r => r.2.isNone && decide (r.1.length = 1) &&
    r.1.all fun d => (d.tokens.all fun t => t.headSent.isSome && decide (t.stop < d.text.length) &&
      ((docText d.text t).head?.all fun x => !isSpace x)) &&
      d.sentences.dropLast.all fun s => decide (EndsRegular (d.sentenceTokens s))) = true := by
  decide +kernel

/-- A last word without a space after it: the text gains a space, the documents differ. -/
theorem C112_last_word_needed : ∃ text,
    ((reloaded text).map fun r => (r.1.map Document.text, r.2.map Document.text)) =
      .ok (["a b".toList], ["a b ".toList]) :=
  ⟨"1\ta\t_\tX\t_\t_\t0\troot\t_\t_\n2\tb\t_\tX\t_\t_\t1\tdep\t_\tSpaceAfter=No\n\n".toList, by decide +kernel⟩

/-- A word that begins with a space, after `SpaceAfter=No`: the text gains a space. -/
theorem C112_leading_space_needed : ∃ text,
    ((reloaded text).map fun r => (r.1.map Document.text, r.2.map Document.text)) =
      .ok (["a b ".toList], ["a  b ".toList]) :=
  ⟨"1\ta\t_\tX\t_\t_\t0\troot\t_\tSpaceAfter=No\n2\t b\t_\tX\t_\t_\t1\tdep\t_\t_\n\n".toList, by decide +kernel⟩

/-- Words without heads: after saving and loading, they have some. -/
theorem C112_heads_needed : ∃ text,
    ((reloaded text).map fun r => (r.1.map fun d => d.tokens.map Token.headSent, r.2.map fun d => d.tokens.map Token.headSent)) =
      .ok ([[none, none, none]], [[some (-1), some 0, some 1]]) :=
  ⟨"1\ta\t_\tX\t_\t_\t_\t_\t_\t_\n2\tb\t_\tX\t_\t_\t_\t_\t_\t_\n3\tc\t_\tX\t_\t_\t_\t_\t_\t_\n\n".toList, by decide +kernel⟩

/-- A sentence ending in a multiword token, with another one after it: what was saved cannot be loaded,
as the words of the multiword token are written once more and the next sentence has two roots. -/
theorem C112_ends_needed : ∃ text, ((readFromStr 50 defaultCols text).map fun r => (r.1.map fun d => d.tokens.length, r.2)) =
      .ok ([3], none) ∧ ((reloaded text).map fun _ => ()) = .error .value :=
  ⟨("1-2\tdel\t_\t_\t_\t_\t_\t_\t_\t_\n1\tde\tde\tADP\t_\t_\t0\troot\t_\t_\n2\tel\tel\tDET\t_\t_\t1\tdet\t_\t_\n\n" ++
    "1\ta\t_\tX\t_\t_\t0\troot\t_\t_\n\n").toList, by decide +kernel⟩

end Verif
