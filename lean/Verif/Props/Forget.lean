import Verif.Spec.Forget
import Verif.Props.Wrappers
import Verif.Props.ConlluLine
import Verif.Proofs.RoundTrip

/-! # C160: the graph-based parser forgets what it does not predict -/

namespace Verif

theorem cell_blank {fields : List Str} {c : Nat} {v : Option Str} (h : Cell fields c v)
    (hf : fields[c]? = some "_".toList) : v = none := by
  obtain ⟨s, h1, h2 | h2⟩ := h
  · exact h2.2
  · rw [hf] at h1
    injection h1 with h1
    exact absurd h1.symm h2.1

theorem cell_said {fields : List Str} {c : Nat} {v o : Option Str} (h : Cell fields c v)
    (hf : fields[c]? = some (o.getD "_".toList)) (ho : o ≠ some "_".toList) : v = o := by
  obtain ⟨s, h1, h2⟩ := h
  rw [hf] at h1
  injection h1 with h1
  cases o with
  | none =>
    rcases h2 with h2 | h2
    · exact h2.2
    · exact absurd h1.symm h2.1
  | some x =>
    simp only [Option.getD_some] at h1
    subst h1
    rcases h2 with h2 | h2
    · exact absurd (by rw [h2.1]) ho
    · exact h2.2

theorem selCell_td {fields : List Str} {c : Nat} {v : Option Str} (h : SelCell tdCols fields c v) (hc : c ∈ tdCols) :
    Cell fields c v := by
  rcases h with h | h
  · exact h.2
  · exact absurd hc h.1

theorem forgets_of {p : TdPreds} {cell : Str → Str} {w : PTok} {t u : Token} {ef : List Str} {ex : Str → ExtraVal}
    (hw : parseLine tdCols (predictedRow p cell) = .ok w) (h : TakenFrom t w ef ex u) :
    Forgets (fun f => f ∈ p.fields.keys) u ∧ Retains (fun f => f ∈ p.fields.keys) cell t u := by
  have hm := C80_line_content hw
  obtain ⟨q, f, q1, q2, q3, q4, q5⟩ := hm.pos (.inl (by decide))
  obtain ⟨v, v1, v2, v3⟩ := hm.head
  have get : ∀ (i : Nat) (s : String), ["id", "form", "lemma", "upos", "xpos", "ufeats", "dephead", "deprel", "semrel",
      "misc"][i]? = some s →
      (s.toList ∉ p.fields.keys → (predictedRow p cell)[i]? = some "_".toList) ∧
      (s.toList ∈ p.fields.keys → (predictedRow p cell)[i]? = some (cell s.toList)) := by
    intro i s hs
    unfold predictedRow
    rw [List.getElem?_map, hs]
    refine ⟨fun h => ?_, fun h => ?_⟩
    · rw [Option.map_some, if_neg h]; rfl
    · rw [Option.map_some, if_pos h]
  have g2 := get 2 "lemma" rfl
  have g3 := get 3 "upos" rfl
  have g4 := get 4 "xpos" rfl
  have g5 := get 5 "ufeats" rfl
  have g6 := get 6 "dephead" rfl
  have g7 := get 7 "deprel" rfl
  have c2 := selCell_td hm.lemma' (by decide)
  have c3 := selCell_td q2 (by decide)
  have c4 := selCell_td q3 (by decide)
  have c5 := selCell_td q4 (by decide)
  have c6 := selCell_td v1 (by decide)
  have c7 := selCell_td hm.deprel (by decide)
  have hu : u.pos = some q := h.pos.trans q1
  constructor
  · refine ⟨fun hn => ?_, fun hn => ?_, fun hn => ?_, fun hn => ?_, fun hn => ?_, fun hn => ?_⟩
    · rw [h.lemma']; exact cell_blank c2 (g2.1 hn)
    · rw [hu]; exact cell_blank c3 (g3.1 hn)
    · rw [hu]; exact cell_blank c4 (g4.1 hn)
    · intro q' hq' k
      rw [hu] at hq'
      injection hq' with hq'
      subst hq'
      have := cell_blank c5 (g5.1 hn)
      subst this
      exact q5 k
    · rw [h.head, v2 (cell_blank c6 (g6.1 hn))]; rfl
    · rw [h.deprel]; exact cell_blank c7 (g7.1 hn)
  · refine ⟨fun hn hc ho => ?_, fun hn hc ho => ?_, fun hn hc ho => ?_, fun hn hc => ?_, fun hn hc ho => ?_⟩
    · rw [h.lemma']; exact cell_said c2 (by rw [g2.2 hn, hc]) ho
    · rw [hu]; exact cell_said c3 (by rw [g3.2 hn, hc]) ho
    · rw [hu]; exact cell_said c4 (by rw [g4.2 hn, hc]) ho
    · have g := g6.2 hn
      rw [hc] at g
      rw [h.head]
      unfold headColumn at g
      cases ht : t.headSent with
      | none =>
        rw [ht] at g
        rw [v2 (cell_blank c6 g)]
        rfl
      | some x =>
        rw [ht] at g
        have hne := normIndex_ne x
        have hp := pyInt_normIndex x
        have g' : (predictedRow p cell)[6]? = some ((some (normIndex x)).getD "_".toList) := g
        have hv := cell_said c6 g' (by
          intro e
          injection e with e
          exact hne e)
        obtain ⟨i, i1, i2⟩ := v3 _ hv
        rw [hp] at i1
        injection i1 with i1
        rw [i2, ← i1]
        simp
    · rw [h.deprel]; exact cell_said c7 (by rw [g7.2 hn, hc]) ho

/-- C160: what the graph-based tagger or parser leaves of an annotation: nothing in the columns that are neither input nor
output of the network; in the others what the network says, so that a column which it passes on is kept. -/
theorem C160_kept_partial (p : TdPreds) (extraFields : List Str) (docs : List Document)
    (hb : ∀ d ∈ docs, Built d) (total : Nat) (htot : (allSentences docs).length ≤ total)
    (cell : Nat → Nat → Str → Str) (extra : Nat → Nat → Str → ExtraVal)
    (hp : Holds p extraFields total (fun n => ((allSentences docs)[n]?.getD []).length) cell extra)
    (hw : ∀ (n : Nat) ts, (allSentences docs)[n]? = some ts → ∀ k < ts.length,
      ∃ w, LineMeans tdCols (predictedRow p (cell n k)) w) :
    ∃ outs, tdProcess true p extraFields docs = .ok outs ∧
      List.Forall₂ (fun d d' => d'.text = d.text ∧ d'.sentences = d.sentences) docs outs ∧
      ∀ (n : Nat) ts us, (allSentences docs)[n]? = some ts → (allSentences outs)[n]? = some us →
        ts.length = us.length ∧ ∀ (k : Nat) t u, ts[k]? = some t → us[k]? = some u →
          Forgets (fun f => f ∈ p.fields.keys) u ∧ Retains (fun f => f ∈ p.fields.keys) (cell n k) t u := by
  have hw' : ∀ n k, ∃ w : PTok, ∀ ts, (allSentences docs)[n]? = some ts → k < ts.length →
      parseLine tdCols (predictedRow p (cell n k)) = .ok w := by
    intro n k
    cases h : (allSentences docs)[n]? with
    | none => exact ⟨⟨none, [], none, none, none, none, false⟩, fun ts h => by cases h⟩
    | some ts =>
      by_cases hk : k < ts.length
      · obtain ⟨w, hm⟩ := hw n ts h k hk
        obtain ⟨w', h'⟩ := C80_accepts hm
        exact ⟨w', fun _ _ _ => h'⟩
      · exact ⟨⟨none, [], none, none, none, none, false⟩, fun ts' e h => by injection e with e; subst e; exact absurd h hk⟩
  choose w hww using hw'
  obtain ⟨outs, h1, h2, h3⟩ := C63_returned p extraFields docs hb total htot cell extra hp w
    (fun n ts hts k hk => hww n k ts hts hk)
  refine ⟨outs, h1, h2, fun n ts us hts hus => ⟨(h3 n ts us hts hus).1, fun k t u ht hu => ?_⟩⟩
  exact forgets_of (hww n k ts hts (by
    rcases Nat.lt_or_ge k ts.length with hk | hk
    · exact hk
    · rw [List.getElem?_eq_none hk] at ht; cases ht)) ((h3 n ts us hts hus).2 k t u ht hu)

namespace Demo

/-- A parsed and lemmatized document. -/
def parsedDoc : Document :=
  { text := "a b".toList,
    tokens := [
      { start := 0, stop := 1, lemma' := some ['x'], headDoc := some (-1), headSent := some (-1), deprel := some ['r'] },
      { start := 2, stop := 3, lemma' := some ['y'], headDoc := some 0, headSent := some 0, deprel := some ['o'] }],
    sentences := [{ start := 0, stop := 2 }] }

/-- A tagger that reads words and predicts parts of speech. -/
def tagPreds : TdPreds :=
  { indices := [0]
    fields := Dict.ofList [("id".toList, [[['0'], ['1'], ['2']]]), ("form".toList, [[[], ['a'], ['b']]]),
      ("upos".toList, [[[], "NOUN".toList, "VERB".toList]])] }

end Demo

/-- C160, refuted: a graph-based tagger that reads words and predicts parts of speech drops the parse and the lemmas of the
documents it tags. -/
theorem C160_refuted : ∃ e, tdProcess true Demo.tagPreds [] [Demo.parsedDoc] = .ok [e] ∧ Built Demo.parsedDoc ∧
    e.tokens.map (fun t => t.pos.bind Pos.upos) = [some "NOUN".toList, some "VERB".toList] ∧
    Demo.parsedDoc.tokens.map Token.headSent = [some (-1), some 0] ∧ e.tokens.map Token.headSent = [none, none] ∧
    Demo.parsedDoc.tokens.map Token.deprel = [some ['r'], some ['o']] ∧
    e.tokens.map Token.deprel = [none, none] ∧
    Demo.parsedDoc.tokens.map Token.lemma' = [some ['x'], some ['y']] ∧ e.tokens.map Token.lemma' = [none, none] := by
  refine ⟨_, rfl, ⟨Demo.parsedDoc.text, Demo.parsedDoc.tokens, Demo.parsedDoc.sentences, true, ?_⟩, ?_⟩ <;> decide +kernel

/-- The documents and predictions of the refutation meet the hypotheses of `C160_kept_partial`. -/
example : ∃ outs, tdProcess true Demo.tagPreds [] [Demo.parsedDoc] = .ok outs := by
  obtain ⟨outs, h, _⟩ := C160_kept_partial Demo.tagPreds [] [Demo.parsedDoc]
    (by simpa using ⟨Demo.parsedDoc.text, Demo.parsedDoc.tokens, Demo.parsedDoc.sentences, true, by decide +kernel⟩) 1
    (by decide +kernel)
    (fun _ k f => (((Demo.tagPreds.fields.get? f).getD []).getD 0 []).getD (k + 1) []) (fun _ _ _ => 0)
    ⟨by decide, by decide +kernel, by
      intro f rows hf i n k hin hk
      have hi : i = 0 ∧ n = 0 := by
        match i with
        | 0 => simp [Demo.tagPreds] at hin; exact ⟨rfl, hin.symm⟩
        | i + 1 => simp [Demo.tagPreds] at hin
      obtain ⟨rfl, rfl⟩ := hi
      have hk2 : k < 2 := hk
      have hmem : (f, rows) ∈ Demo.tagPreds.fields.entries := Dict.get?_mem.1 hf
      have hall : ∀ e ∈ Demo.tagPreds.fields.entries, e.2.length = 1 ∧ (e.2.getD 0 []).length = 3 := by decide +kernel
      obtain ⟨h1, h2⟩ := hall _ hmem
      simp only at h1 h2
      refine ⟨rows.getD 0 [], ?_, ?_⟩
      · rw [List.getD_eq_getElem?_getD, List.getElem?_eq_getElem (by omega)]; rfl
      · have h3 : k + 1 < (rows.getD 0 []).length := by omega
        rw [hf, Option.getD_some, List.getElem?_eq_getElem h3]
        generalize rows.getD 0 [] = row at h3
        rw [List.getD_eq_getElem?_getD, List.getElem?_eq_getElem h3]
        rfl,
     by simp⟩ (by
      intro n ts hts k hk
      have hn : n = 0 := by
        match n with
        | 0 => rfl
        | n + 1 => simp [allSentences, Demo.parsedDoc] at hts
      subst hn
      have hk2 : k < 2 := by
        have : ts.length = 2 := by
          have h0 : (allSentences [Demo.parsedDoc])[0]?.map List.length = some 2 := by decide +kernel
          rw [hts] at h0
          simpa using h0
        omega
      match k, hk2 with
      | 0, _ => exact ⟨_, C80_line_content (p := ⟨some ['1'], ['a'], some ⟨some "NOUN".toList, none, Dict.empty⟩, none, none, none, true⟩)
          (by decide +kernel)⟩
      | 1, _ => exact ⟨_, C80_line_content (p := ⟨some ['2'], ['b'], some ⟨some "VERB".toList, none, Dict.empty⟩, none, none, none, true⟩)
          (by decide +kernel)⟩)
  exact ⟨outs, h⟩

end Verif
