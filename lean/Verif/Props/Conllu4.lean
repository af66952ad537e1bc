import Verif.Proofs.WriterErrors

/-!
# The exact condition for a column selection to be writable (C22)
-/

namespace Verif

/-- C22, the exact condition: writing documents fails if and only if FEATS is not selected and some
token has a part of speech; the failure is a `TypeError`. -/
theorem C22_writes_iff {columns : Cols} {docs : List Document} (hb : ∀ d ∈ docs, Built d) :
    ((∃ out, writeToStr columns docs = .ok out) ↔
      colFEATS ∈ columns ∨ ∀ d ∈ docs, ∀ t ∈ d.tokens, t.pos = none) ∧
    ∀ e, writeToStr columns docs = .error e → e = .type := by
  have hw : colFEATS ∈ withHead columns ↔ colFEATS ∈ columns := by
    unfold withHead
    split
    · rw [List.mem_cons]
      exact ⟨fun h => h.resolve_left (by decide), .inr⟩
    · exact Iff.rfl
  refine ⟨⟨?_, ?_⟩, ?_⟩
  · rintro ⟨out, h⟩
    by_cases hf : colFEATS ∈ columns
    · exact .inl hf
    · refine .inr fun d hd t ht => ?_
      obtain ⟨s1, s2, hs⟩ := forM'_ok_each h d hd
      exact (writeDocument_fine (hb d hd) hs t ht).resolve_right (fun h => hf (hw.mp h))
  · intro h
    refine writeToStr_total hb fun d hd t ht => ?_
    rcases h with h | h
    · exact .inr (hw.mpr h)
    · exact .inl (h d hd t ht)
  · intro e h
    exact forM'_err_kind (fun s d hd e he => writeDocument_err (hb d hd) he) h

/-- Both sides occur: the demo document has parts of speech. -/
example : Built Demo.wdoc ∧ (∃ t ∈ Demo.wdoc.tokens, t.pos ≠ none) ∧
    writeToStr [colLEMMA, colUPOS] [Demo.wdoc] = .error .type :=
  ⟨Demo.wdocBuilt, by decide, by
    have h := C22_writes_iff (columns := [colLEMMA, colUPOS]) (docs := [Demo.wdoc])
      (by simpa using Demo.wdocBuilt)
    cases hw : writeToStr [colLEMMA, colUPOS] [Demo.wdoc] with
    | error e => rw [h.2 e hw]
    | ok out =>
      exact absurd (h.1.mp ⟨out, hw⟩) (by decide)⟩

/-- C22: when neither HEAD nor DEPREL is selected, every word line carries as HEAD the number of the
line before it (0 for the first word), whatever the document says, and `_` as DEPREL. -/
theorem C22_made_up_heads {columns : Cols} {docs : List Document} (hb : ∀ d ∈ docs, Built d)
    (hh : colHEAD ∉ columns) (hr : colDEPREL ∉ columns) {out : Str}
    (h : writeToStr columns docs = .ok out) :
    ∃ ls : List (Option (List Str)), out = ls.flatMap lineText ∧ ∀ r, some r ∈ ls →
      (∃ k : Nat, r[colID]? = some (natStr (k + 1)) ∧ r[colHEAD]? = some (natStr k) ∧
        r[colDEPREL]? = some underscore) ∨
      (∃ i j : Nat, r[colID]? = some (natStr i ++ '-' :: natStr j)) ∧
        r[colHEAD]? = some underscore ∧ r[colDEPREL]? = some underscore := by
  have hx : ∀ v : Option Int, extract (withHead columns) colHEAD v = none := by
    intro v
    unfold extract withHead
    rw [if_neg hr, if_neg hh]
  refine writeToStr_lines hb ?_ ?_ h
  · intro d hd k t ht b r hr
    obtain ⟨_, rfl⟩ := isRow_iff.mp hr
    refine .inl ⟨k, rfl, ?_, ?_⟩
    · simp [rowFields, hx]
    · simp [rowFields, hx]
  · intro d hd i j t ht
    exact .inr ⟨⟨i, j, rfl⟩, rfl, rfl⟩

example : colHEAD ∉ [colFEATS] ∧ colDEPREL ∉ [colFEATS] ∧
    ∃ out, writeToStr [colFEATS] [Demo.wdoc] = .ok out :=
  ⟨by decide, by decide, ((C22_writes_iff (columns := [colFEATS]) (docs := [Demo.wdoc])
    (by simpa using Demo.wdocBuilt)).1.mpr (.inl (by decide)))⟩

end Verif
