import Verif.Proofs.Rows
import Verif.Spec.RoundTrip

/-!
# Reading what the writer wrote: rows
-/

namespace Verif

/-- All columns the reader and writer know about. -/
def FullCols (cols : Cols) : Prop := ∀ c ∈ [colLEMMA, colUPOS, colXPOS, colFEATS, colHEAD, colDEPREL], c ∈ cols

theorem parseEntry_featStr {e : Str × Str} (h : FeatOk e) : parseEntry (featStr e) = .ok e := by
  unfold parseEntry featStr
  rw [splitOn1_append h.1, splitOn1_of_not_mem h.2.2.1]

theorem unshield_ne {s : Str} (h : s ≠ underscore) : unshield s = some s := if_neg h

theorem unshield_shield {v : Option Str} (h : v ≠ some underscore) : unshield (shield v) = v := by
  cases v with
  | none => rfl
  | some s => exact unshield_ne (fun e => h (by rw [← e]; rfl))

theorem parseToDict_feats {d : Dict Str Str} (h : ∀ e ∈ d.entries, FeatOk e) :
    ∃ d', parseToDict (unshield (featsField d)) = .ok d' ∧ SameMap d d' := by
  unfold featsField
  by_cases he : d.entries = []
  · rw [if_pos (by simp [he])]
    refine ⟨Dict.empty, rfl, fun k => ?_⟩
    unfold Dict.get?
    rw [he]; rfl
  · rw [if_neg (by simpa using he)]
    generalize hl : pySorted (· ≤ ·) (d.entries.map featStr) = l
    have hp : l.Perm (d.entries.map featStr) := hl ▸ pySorted_perm _ _
    have hne : l ≠ [] := by
      rintro rfl
      exact he (by simpa using hp.symm.eq_nil)
    have hbar : ∀ w ∈ l, '|' ∉ w := by
      intro w hw
      obtain ⟨e, he, rfl⟩ := List.mem_map.mp (hp.mem_iff.mp hw)
      have := h e he
      simp only [featStr, List.mem_append, List.mem_cons, not_or]
      exact ⟨this.2.1, by decide, this.2.2.2⟩
    have hu : joinWith '|' l ≠ underscore := by
      intro e
      obtain ⟨w, ws, rfl⟩ := List.exists_cons_of_ne_nil hne
      have h1 := splitOn1_joinWith hne hbar
      rw [e] at h1
      have h2 : splitOn1 '|' underscore = [underscore] := by decide
      rw [h2] at h1
      have hw : underscore ∈ d.entries.map featStr := hp.mem_iff.mp (by rw [← h1]; simp)
      obtain ⟨x, _, hx⟩ := List.mem_map.mp hw
      have : '=' ∈ underscore := by rw [← hx]; simp [featStr]
      revert this; decide
    rw [unshield_ne hu]
    have hm : ∀ w ∈ l, parseEntry w = .ok ((splitOn1 '=' w)[0]!, (splitOn1 '=' w)[1]!) := by
      intro w hw
      obtain ⟨e, he, rfl⟩ := List.mem_map.mp (hp.mem_iff.mp hw)
      have := h e he
      rw [parseEntry_featStr this]
      unfold featStr
      rw [splitOn1_append this.1, splitOn1_of_not_mem this.2.2.1]
      rfl
    have hback : (d.entries.map featStr).map (fun w => ((splitOn1 '=' w)[0]!, (splitOn1 '=' w)[1]!)) = d.entries := by
      rw [List.map_map]
      conv => rhs; rw [← List.map_id d.entries]
      apply List.map_congr_left
      intro e he
      have := h e he
      simp only [Function.comp, id]
      unfold featStr
      rw [splitOn1_append this.1, splitOn1_of_not_mem this.2.2.1]
      rfl
    have hperm : (l.map (fun w => ((splitOn1 '=' w)[0]!, (splitOn1 '=' w)[1]!))).Perm d.entries :=
      (hp.map _).trans (List.Perm.of_eq hback)
    simp only [parseToDict, splitOn1_joinWith hne hbar, mapM'_ok_of_forall hm]
    generalize l.map (fun w => ((splitOn1 '=' w)[0]!, (splitOn1 '=' w)[1]!)) = m at hperm
    have hn : (m.map Prod.fst).Nodup := (hperm.map Prod.fst).nodup_iff.mpr d.nodup
    refine ⟨_, rfl, ?_⟩
    intro k
    have he := Dict.ofList_entries m hn
    rw [← Dict.pyEq_iff.mp (Dict.pyEq_perm.mpr (he ▸ hperm)) k]

theorem pyInt_normIndex (i : Int) : pyInt (normIndex i) = .ok (i + 1) := by
  unfold normIndex
  split
  · rename_i h; subst h; decide
  · exact pyInt_intStr _

theorem normIndex_ne (i : Int) : normIndex i ≠ underscore := by
  unfold normIndex
  split
  · decide
  · intro e
    have : '_' ∈ intStr (i + 1) := by rw [e]; decide
    rcases intStr_mem this with h | h <;> revert h <;> decide

theorem natStr_ne (n : Nat) : natStr n ≠ underscore := by
  intro e
  have : '_' ∈ natStr n := by rw [e]; decide
  exact natStr_not_mem (by decide) this

/-- The line `p` says what token `t` says. -/
structure LineSays (text : Str) (t : Token) (p : PTok) : Prop where
  text : p.text = tokText text t
  pos : Option.Rel SamePos t.pos p.pos
  lemma' : p.lemma' = t.lemma'
  deprel : p.deprel = t.deprel
  head : p.head = t.headSent.map (· + 1)

theorem parseMisc (b : Bool) : ∃ m, parseToDict (unshield (if b then spaceAfterNo else underscore)) = .ok m ∧
    (m.get? "SpaceAfter".toList).isNone = !b := by
  cases b
  · exact ⟨_, rfl, by decide⟩
  · exact ⟨_, rfl, by decide⟩

theorem parseLine_row {cols : Cols} (hc : FullCols cols) {text : Str} {k : Nat} {t : Token} {b : Bool}
    (hw : TokenWritable text t) :
    ∃ p, parseLine cols (rowFields cols text k t b) = .ok p ∧ LineSays text t p ∧
      p.id = some (natStr (k + 1)) ∧ p.spaceAfter = !(b && !spaceAfter text t) := by
  obtain ⟨q, hq, hu, hx, hf⟩ := hw.pos
  obtain ⟨h, hh⟩ := Option.ne_none_iff_exists'.mp hw.head
  obtain ⟨fd, hfd, hsame⟩ := parseToDict_feats hf
  obtain ⟨m, hm1, hm2⟩ := parseMisc (b && !spaceAfter text t)
  have c1 : colLEMMA ∈ cols := hc _ (by decide)
  have c2 : colUPOS ∈ cols := hc _ (by decide)
  have c3 : colXPOS ∈ cols := hc _ (by decide)
  have c4 : colFEATS ∈ cols := hc _ (by decide)
  have c5 : colHEAD ∈ cols := hc _ (by decide)
  have c6 : colDEPREL ∈ cols := hc _ (by decide)
  have e : rowFields cols text k t b = [natStr (k + 1), tokText text t, shield t.lemma', shield q.upos,
      shield q.xpos, featsField q.feats, normIndex h, shield t.deprel, underscore,
      if b && !spaceAfter text t then spaceAfterNo else underscore] := by
    simp only [rowFields, extract, c1, c2, c3, c5, c6, if_true, hq, hh]
  refine ⟨{ id := some (natStr (k + 1)), text := tokText text t, pos := some ⟨q.upos, q.xpos, fd⟩, lemma' := t.lemma',
            head := some (h + 1), deprel := t.deprel, spaceAfter := !(b && !spaceAfter text t) }, ?_, ?_, rfl, rfl⟩
  · rw [e]
    have ht : (unshield (tokText text t)).getD underscore = tokText text t := by
      unfold unshield
      split
      · rename_i e; rw [e]; rfl
      · rfl
    unfold parseLine
    simp only [List.map_cons, List.map_nil, unshield_shield hw.lemma', unshield_shield hw.deprel,
      unshield_shield hu, unshield_shield hx, unshield_ne (natStr_ne _), unshield_ne (normIndex_ne _)]
    generalize hM : unshield (if (b && !spaceAfter text t) = true then spaceAfterNo else underscore) = M at *
    generalize hF : unshield (featsField q.feats) = F at *
    simp [rowGet, colGet, parsePos, c1, c2, c3, c4, c5, c6, bind, Except.bind, pure, Except.pure, hfd, hm1,
      parseHead, pyInt_normIndex, ht]
    simpa using hm2
  · exact ⟨rfl, by rw [hq]; exact .some ⟨rfl, rfl, hsame⟩, rfl, rfl, by rw [hh]; rfl⟩

theorem parseLine_header {cols : Cols} {text : Str} {k n : Nat} {t : Token} :
    ∃ p, parseLine cols (headerRow text k n t) = .ok p ∧ p.text = docText text t ∧
      p.id = some (natStr (k + 1) ++ '-' :: natStr (k + n)) ∧ p.spaceAfter = spaceAfter text t := by
  have hid : natStr (k + 1) ++ '-' :: natStr (k + n) ≠ underscore := by
    intro e
    have : '-' ∈ underscore := by rw [← e]; simp
    revert this; decide
  have hu : unshield underscore = none := rfl
  obtain ⟨m, hm1, hm2⟩ := parseMisc (!spaceAfter text t)
  have em : (if spaceAfter text t = true then underscore else spaceAfterNo) =
      if (!spaceAfter text t) = true then spaceAfterNo else underscore := by
    cases spaceAfter text t <;> rfl
  have ht : (unshield (docText text t)).getD underscore = docText text t := by
    unfold unshield
    split
    · rename_i e; rw [e]; rfl
    · rfl
  refine ⟨{ id := some (natStr (k + 1) ++ '-' :: natStr (k + n)), text := docText text t,
            pos := if colUPOS ∈ cols ∨ colXPOS ∈ cols ∨ colFEATS ∈ cols then some ⟨none, none, Dict.empty⟩ else none,
            lemma' := none, head := none, deprel := none, spaceAfter := spaceAfter text t }, ?_, rfl, rfl, rfl⟩
  have hcol : ∀ c, c ∈ [colLEMMA, colUPOS, colXPOS, colFEATS, colHEAD, colDEPREL] →
      colGet cols ((headerRow text k n t).map unshield) c = .ok none := by
    intro c hc
    unfold colGet
    split
    · simp only [List.mem_cons, List.not_mem_nil, or_false] at hc
      rcases hc with rfl | rfl | rfl | rfl | rfl | rfl <;> rfl
    · rfl
  have hpos : parsePos cols ((headerRow text k n t).map unshield) =
      .ok (if colUPOS ∈ cols ∨ colXPOS ∈ cols ∨ colFEATS ∈ cols then some ⟨none, none, Dict.empty⟩ else none) := by
    unfold parsePos
    rw [hcol colUPOS (by decide), hcol colXPOS (by decide), hcol colFEATS (by decide)]
    split <;> rfl
  have g1 : rowGet ((headerRow text k n t).map unshield) colID = .ok (some (natStr (k + 1) ++ '-' :: natStr (k + n))) := by
    rw [← unshield_ne hid]; rfl
  have g2 : rowGet ((headerRow text k n t).map unshield) colFORM = .ok (unshield (docText text t)) := rfl
  have g3 : rowGet ((headerRow text k n t).map unshield) colMISC =
      .ok (unshield (if (!spaceAfter text t) = true then spaceAfterNo else underscore)) := by rw [← em]; rfl
  unfold parseLine
  simp only [hcol colLEMMA (by decide), hcol colHEAD (by decide), hcol colDEPREL (by decide), hpos, g1, g2, g3, hm1,
    bind, Except.bind, pure, Except.pure, parseHead, ht, hm2, Bool.not_not]

end Verif
