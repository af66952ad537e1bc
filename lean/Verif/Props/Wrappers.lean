import Verif.Proofs.Wrappers2
import Verif.Props.Extractors

/-!
# The wrappers around UDPipe and the tdozat parser: C63, C64, C89, C90
-/

namespace Verif

/-! ### C63 -/

/-- C63: whatever order the sentences were processed in, the predictions are distributed without an
error, one document per document with the same text and sentences, and word `k` of the `n`-th sentence
of all gets the annotation `w n k` that was predicted for it. -/
theorem C63_returned (p : TdPreds) (extraFields : List Str) (docs : List Document)
    (hb : ∀ d ∈ docs, Built d) (total : Nat) (htot : (allSentences docs).length ≤ total)
    (cell : Nat → Nat → Str → Str) (extra : Nat → Nat → Str → ExtraVal)
    (hp : Holds p extraFields total (fun n => ((allSentences docs)[n]?.getD []).length) cell extra)
    (w : Nat → Nat → PTok)
    (hw : ∀ (n : Nat) ts, (allSentences docs)[n]? = some ts → ∀ k < ts.length,
      parseLine tdCols (predictedRow p (cell n k)) = .ok (w n k)) :
    ∃ outs, tdProcess true p extraFields docs = .ok outs ∧
      List.Forall₂ (fun d d' => d'.text = d.text ∧ d'.sentences = d.sentences) docs outs ∧
      ∀ (n : Nat) ts us, (allSentences docs)[n]? = some ts → (allSentences outs)[n]? = some us →
        ts.length = us.length ∧ ∀ (k : Nat) t u, ts[k]? = some t → us[k]? = some u →
          TakenFrom t (w n k) extraFields (extra n k) u := by
  simp only [tdProcess, if_true]
  have main : ∀ (ds : List Document) (a : Nat), (∀ d ∈ ds, Built d) →
      (∀ q : Nat, (allSentences docs)[a + q]? = (allSentences ds)[q]?) →
      a + (allSentences ds).length ≤ total →
      ∃ outs, tdDistribute p extraFields a ds = .ok outs ∧
        List.Forall₂ (fun d d' => d'.text = d.text ∧ d'.sentences = d.sentences) ds outs ∧
        ∀ (n : Nat) ts us, (allSentences ds)[n]? = some ts → (allSentences outs)[n]? = some us →
          ts.length = us.length ∧ ∀ (k : Nat) t u, ts[k]? = some t → us[k]? = some u →
            TakenFrom t (w (a + n) k) extraFields (extra (a + n) k) u := by
    intro ds
    induction ds with
    | nil => exact fun a _ _ _ => ⟨[], rfl, .nil, by simp [allSentences]⟩
    | cons d ds ih =>
      intro a hbd heq hle
      have hcons : allSentences (d :: ds) = d.sentences.map d.sentenceTokens ++ allSentences ds := by
        simp [allSentences]
      rw [hcons, List.length_append, List.length_map] at hle
      have hok := (hbd d (by simp)).docOk
      have hq : ∀ (q : Nat) s, d.sentences[q]? = some s →
          (allSentences docs)[a + q]? = some (d.sentenceTokens s) := by
        intro q s hs
        have hlt := (List.getElem?_eq_some_iff.mp hs).1
        rw [heq, hcons, List.getElem?_append_left (by simpa using hlt), List.getElem?_map, hs]
        rfl
      have hlen : ∀ s ∈ d.sentences, (d.sentenceTokens s).length = s.stop - s.start := by
        intro s hs
        show (slice d.tokens s.start s.stop).length = _
        rw [slice_length]
        have := (hok.tiles.mem hs).2
        omega
      obtain ⟨d', h1, h2, h3, h4⟩ := tdDocument_total (w := w) hp hok (k := a) (by omega)
        (by
          intro q s hs
          rw [hq q s hs]
          exact hlen s (List.mem_of_getElem? hs))
        (by
          intro q s hs j hj
          exact hw _ _ (hq q s hs) j (by rw [hlen s (List.mem_of_getElem? hs)]; exact hj))
      obtain ⟨outs, h5, h6, h7⟩ := ih (a + d.sentences.length) (fun x hx => hbd x (by simp [hx]))
        (by
          intro q
          rw [Nat.add_assoc, heq, hcons, List.getElem?_append_right (by simp)]
          congr 1
          simp) (by omega)
      refine ⟨d' :: outs, by simp only [tdDistribute, h1, h5], .cons ⟨h2, h3⟩ h6, ?_⟩
      have hcons' : allSentences (d' :: outs) = d'.sentences.map d'.sentenceTokens ++ allSentences outs := by
        simp [allSentences]
      intro n ts us hts hus
      rw [hcons] at hts
      rw [hcons', h3] at hus
      by_cases hn : n < d.sentences.length
      · rw [List.getElem?_append_left (by simpa using hn), List.getElem?_map, List.getElem?_eq_getElem hn]
          at hts hus
        simp only [Option.map_some, Option.some.injEq] at hts hus
        subst hts hus
        exact h4 n _ (List.getElem?_eq_getElem hn)
      · rw [List.getElem?_append_right (by simpa using hn), List.length_map] at hts hus
        have := h7 (n - d.sentences.length) ts us hts hus
        rw [show a + d.sentences.length + (n - d.sentences.length) = a + n by omega] at this
        exact this
  obtain ⟨outs, h1, h2, h3⟩ := main docs 0 hb (fun q => by simp) (by omega)
  refine ⟨outs, h1, h2, ?_⟩
  simpa using h3

/-- C63: what is handed to the network for a document is one row of ten columns per word, sentence by
sentence in order, followed by an empty sentence.  Words without head get none (unlike in files), and missing spaces are marked. -/
theorem C63_itersents (d : Document) (l : List (List (List Str))) (h : itersents d = .ok l) :
    ∃ rows, l = rows ++ [[]] ∧
      List.Forall₂ (fun (s : Sentence) (r : List (List Str)) => r.length = (d.sentenceTokens s).length ∧
        ∀ (k : Nat) t fields, (d.sentenceTokens s)[k]? = some t → r[k]? = some fields →
          fields.length = 10 ∧ fields[0]? = some (natStr (k + 1)) ∧ fields[1]? = some (tokText d.text t) ∧
          fields[2]? = some (t.lemma'.getD "_".toList) ∧
          fields[3]? = some ((t.pos.bind Pos.upos).getD "_".toList) ∧ fields[4]? = some ((t.pos.bind Pos.xpos).getD "_".toList) ∧
          (t.headSent = none → fields[6]? = some "_".toList ∧ fields[7]? = some "_".toList) ∧
          (∀ v, t.headSent = some v → fields[6]? = some (normIndex v) ∧ fields[7]? = some (t.deprel.getD "_".toList)) ∧
          fields[9]? = some (if spaceAfter d.text t then "_".toList else "SpaceAfter=No".toList)) d.sentences rows := by
  unfold itersents at h
  split at h
  · cases h
  · rename_i rows hr
    injection h with h
    refine ⟨rows, h.symm, ?_⟩
    refine (mapM'_ok_iff.mp hr).imp (fun s r hs => ?_)
    have h1 := forall₂_getElem?.mp (mapM'_ok_iff.mp hs)
    refine ⟨?_, ?_⟩
    · rw [← h1.1, List.length_zipIdx]
      rfl
    · intro k t fields ht hf
      have h2 : ((slice d.tokens s.start s.stop).zipIdx)[k]? = some (t, k) := by
        rw [List.getElem?_zipIdx, show (slice d.tokens s.start s.stop)[k]? = some t from ht]
        simp
      have h3 := h1.2 _ _ _ h2 hf
      unfold toConll at h3
      simp only [pure, bind, Except.pure, Except.bind] at h3
      have hidx : normIndex (k : Int) = natStr (k + 1) := rfl
      have hsp : (if true && !spaceAfter d.text t then spaceAfterNo else underscore) =
          if spaceAfter d.text t then "_".toList else "SpaceAfter=No".toList := by
        cases spaceAfter d.text t <;> rfl
      cases hp : t.pos with
      | none =>
        rw [hp] at h3
        injection h3 with h3
        subst h3
        refine ⟨rfl, congrArg some hidx, rfl, ?_, rfl, rfl, ?_, ?_, congrArg some hsp⟩
        · cases hl : t.lemma' <;> rfl
        · intro hh; rw [hh]; exact ⟨rfl, rfl⟩
        · intro v hh; rw [hh]; cases t.deprel <;> exact ⟨rfl, rfl⟩
      | some p =>
        rw [hp] at h3
        simp only at h3
        split at h3
        · cases h3
        · injection h3 with h3
          subst h3
          refine ⟨rfl, congrArg some hidx, rfl, ?_, ?_, ?_, ?_, ?_, congrArg some hsp⟩
          · cases hl : t.lemma' <;> rfl
          · show some (shield p.upos) = some (p.upos.getD _)
            cases p.upos <;> rfl
          · show some (shield p.xpos) = some (p.xpos.getD _)
            cases p.xpos <;> rfl
          · intro hh; rw [hh]; exact ⟨rfl, rfl⟩
          · intro v hh; rw [hh]; cases t.deprel <;> exact ⟨rfl, rfl⟩

namespace Demo

/-- Predictions for the two sentences of `doc`, the second one processed first. -/
def preds : TdPreds :=
  { indices := [1, 0]
    fields := Dict.ofList [("id".toList, [[['0'], ['1'], ['2']], [['0'], ['1'], ['2']]]),
      ("upos".toList, [[[], ['A'], ['B']], [[], ['C'], ['D']]]),
      ("dephead".toList, [[[], ['0'], ['1']], [[], ['2'], ['0']]])]
    extras := Dict.ofList [(['x'], [[0, 1, 2], [0, 3, 4]])] }

end Demo

example : (tdProcess true Demo.preds [['x']] [Demo.doc]).map (fun ds => ds.flatMap (fun d => d.tokens.map (fun t =>
      (t.pos.bind (fun p => p.upos), t.headSent, t.extras.get? ['x'])))) =
    .ok [(some ['C'], some 1, some 3), (some ['D'], some (-1), some 4),
      (some ['A'], some (-1), some 1), (some ['B'], some 0, some 2)] := by decide +kernel

example : Holds Demo.preds [['x']] 2 (fun _ => 2)
    (fun n k f => if f = "id".toList then (if k = 0 then ['1'] else ['2'])
      else if f = "upos".toList then (if n = 0 then (if k = 0 then ['C'] else ['D']) else (if k = 0 then ['A'] else ['B']))
      else (if n = 0 then (if k = 0 then ['2'] else ['0']) else (if k = 0 then ['0'] else ['1'])))
    (fun n k _ => if n = 0 then 3 + k else 1 + k) := by
  have hi : ∀ i n : Nat, Demo.preds.indices[i]? = some n → (i = 0 ∧ n = 1) ∨ (i = 1 ∧ n = 0) := by
    intro i n h
    match i with
    | 0 => left; simp [Demo.preds] at h; exact ⟨rfl, h.symm⟩
    | 1 => right; simp [Demo.preds] at h; exact ⟨rfl, h.symm⟩
    | i + 2 => simp [Demo.preds] at h
  refine ⟨by decide, by decide +kernel, ?_, ?_⟩
  · intro f rows hf i n k hin hk
    have hmem : f ∈ Demo.preds.fields.keys := by
      rw [← Dict.get?_isSome, hf]; rfl
    have hkeys : Demo.preds.fields.keys = ["id".toList, "upos".toList, "dephead".toList] := by decide +kernel
    rw [hkeys] at hmem
    simp only [List.mem_cons, List.not_mem_nil, or_false] at hmem
    have hk2 : k = 0 ∨ k = 1 := by omega
    rcases hmem with rfl | rfl | rfl
    · have he : Demo.preds.fields.get? "id".toList = some [[['0'], ['1'], ['2']], [['0'], ['1'], ['2']]] := by
        decide +kernel
      rw [he] at hf
      injection hf with hf
      subst hf
      rcases hi i n hin with ⟨rfl, rfl⟩ | ⟨rfl, rfl⟩ <;> rcases hk2 with rfl | rfl <;>
        exact ⟨_, rfl, by decide +kernel⟩
    · have he : Demo.preds.fields.get? "upos".toList = some [[[], ['A'], ['B']], [[], ['C'], ['D']]] := by
        decide +kernel
      rw [he] at hf
      injection hf with hf
      subst hf
      rcases hi i n hin with ⟨rfl, rfl⟩ | ⟨rfl, rfl⟩ <;> rcases hk2 with rfl | rfl <;>
        exact ⟨_, rfl, by decide +kernel⟩
    · have he : Demo.preds.fields.get? "dephead".toList = some [[[], ['0'], ['1']], [[], ['2'], ['0']]] := by
        decide +kernel
      rw [he] at hf
      injection hf with hf
      subst hf
      rcases hi i n hin with ⟨rfl, rfl⟩ | ⟨rfl, rfl⟩ <;> rcases hk2 with rfl | rfl <;>
        exact ⟨_, rfl, by decide +kernel⟩
  · intro f hf
    simp only [List.mem_cons, List.not_mem_nil, or_false] at hf
    subst hf
    refine ⟨[[0, 1, 2], [0, 3, 4]], by decide +kernel, ?_⟩
    intro i n k hin hk
    have hk2 : k = 0 ∨ k = 1 := by omega
    rcases hi i n hin with ⟨rfl, rfl⟩ | ⟨rfl, rfl⟩ <;> rcases hk2 with rfl | rfl <;>
      exact ⟨_, rfl, by decide +kernel⟩

/-! ### C64 -/

/-- C64: if the UDPipe model answers every sentence with one word per token and well-formed features,
processing succeeds: one document per document with the same text and sentences, and every token stays
in its place with its text and extras and is annotated as its word says. -/
theorem C64_words (pipe : List UdWord → Res (List UdWord)) (docs : List Document)
    (hb : ∀ d ∈ docs, Built d)
    (hp : ∀ d ∈ docs, ∀ s ∈ d.sentences, ∃ ws, pipe ((d.sentenceTokens s).map (toUd d.text)) = .ok ws ∧
      UdAnswer (s.stop - s.start) ws) :
    ∃ outs, udProcessAll pipe docs = .ok outs ∧
      List.Forall₂ (fun d d' => d'.text = d.text ∧ d'.sentences = d.sentences ∧
        ∀ s ∈ d.sentences, ∃ ws, pipe ((d.sentenceTokens s).map (toUd d.text)) = .ok ws ∧
          (d'.sentenceTokens s).length = (d.sentenceTokens s).length ∧
          ∀ (j : Nat) t w u, (d.sentenceTokens s)[j]? = some t → ws[j]? = some w →
            (d'.sentenceTokens s)[j]? = some u → AnnotatedAs t w u) docs outs := by
  obtain ⟨outs, ho⟩ : ∃ outs, udProcessAll pipe docs = .ok outs := by
    apply mapM'_total
    intro d hd
    obtain ⟨d', h2, _⟩ := udProcess_total (hb d hd).docOk (hp d hd)
    exact ⟨d', h2⟩
  refine ⟨outs, ho, ?_⟩
  refine forall₂_imp_mem (mapM'_ok_iff.mp ho) (fun d d' hd h => ?_)
  obtain ⟨d'', h1, h2⟩ := udProcess_total (hb d hd).docOk (hp d hd)
  rw [h1] at h
  injection h with h
  subst h
  exact h2

/-- C64: the words handed to UDPipe carry the text, lemma, tags and features of the tokens, and no
head. -/
theorem C64_input (text : Str) (t : Token) :
    (toUd text t).form = tokText text t ∧ (toUd text t).lemma' = t.lemma'.getD [] ∧
    (toUd text t).head = -1 ∧ (toUd text t).deprel = [] ∧
    (∀ p, t.pos = some p → (toUd text t).upostag = p.upos.getD [] ∧ (toUd text t).xpostag = p.xpos.getD []) ∧
    (t.pos = none → (toUd text t).upostag = [] ∧ (toUd text t).xpostag = [] ∧ (toUd text t).feats = []) := by
  unfold toUd
  cases h : t.pos with
  | none => simp
  | some p => simp

/-- C64: with a model that changes nothing, lemma, tags and features survive the conversion in both
directions (empty strings and empty tags count as missing), provided that no name or value of a feature
contains `=` or `|`. -/
theorem C64_identity (docs : List Document) (hb : ∀ d ∈ docs, Built d)
    (hf : ∀ d ∈ docs, ∀ t ∈ d.tokens, FeatsWritable t) :
    ∃ outs, udProcessAll (fun ws => .ok ws) docs = .ok outs ∧
      List.Forall₂ (fun d d' => d'.text = d.text ∧ d'.sentences = d.sentences ∧
        List.Forall₂ (fun t u => SamePlace t u ∧ SameMorphology t u) d.tokens d'.tokens) docs outs := by
  have hp : ∀ d ∈ docs, ∀ s ∈ d.sentences, ∃ ws,
      (fun ws => (.ok ws : Res (List UdWord))) ((d.sentenceTokens s).map (toUd d.text)) = .ok ws ∧
      UdAnswer (s.stop - s.start) ws := by
    intro d hd s hs
    refine ⟨_, rfl, ?_⟩
    have h3 := toUd_answer (d := d) (ts := d.sentenceTokens s)
      (fun t ht => hf d hd t ((slice_sublist d.tokens s.start s.stop).subset ht))
    have h4 : (d.sentenceTokens s).length = s.stop - s.start := by
      show (slice d.tokens s.start s.stop).length = _
      rw [slice_length]
      have := ((hb d hd).docOk.tiles.mem hs).2
      omega
    rw [h4] at h3
    exact h3
  obtain ⟨outs, h1, _⟩ := C64_words (fun ws => .ok ws) docs hb hp
  refine ⟨outs, h1, forall₂_imp_mem (mapM'_ok_iff.mp h1) (fun d d' hd hd' => ?_)⟩
  obtain ⟨d'', h2, e1, e2, e3⟩ := udProcess_total (hb d hd).docOk (hp d hd)
  have hdd : d' = d'' := by
    rw [h2] at hd'
    injection hd' with hd'
    exact hd'.symm
  subst hdd
  refine ⟨e1, e2, ?_⟩
  have hok := (hb d hd).docOk
  have hlen : d'.tokens.length = d.tokens.length := by
    rcases udProcess_structure hok hd' with h5 | h5
    · exact h5.2.2.length_eq.symm
    · have h6 := hok.tiles
      rw [← e2, h5.2.2] at h6
      simp only [Tiles] at h6
      rw [h5.2.1, ← h6]
      rfl
  rw [forall₂_getElem?]
  refine ⟨hlen.symm, fun j t u ht hu => ?_⟩
  have hj := (List.getElem?_eq_some_iff.mp ht).1
  obtain ⟨s, hs, h5, h6⟩ := hok.tiles.cover (Nat.zero_le j) hj
  obtain ⟨ws, h7, _, h8⟩ := e3 s hs
  injection h7 with h7
  subst h7
  have hsl : ∀ (x : Document) y, x.tokens[j]? = some y → (x.sentenceTokens s)[j - s.start]? = some y := by
    intro x y hxy
    show (slice x.tokens s.start s.stop)[j - s.start]? = some y
    rw [slice_getElem?, if_pos (by omega), show s.start + (j - s.start) = j by omega]
    exact hxy
  have h9 := h8 (j - s.start) t (toUd d.text t) u (hsl d t ht)
    (by rw [List.getElem?_map, hsl d t ht]; rfl) (hsl d' u hu)
  exact ⟨h9.place, annotated_morphology (hf d hd t (List.mem_of_getElem? ht)) h9⟩

/-- C64: whatever the model answers, a document that is returned has the text, the sentences and the
tokens of the original one, or all its tokens have been dropped. -/
theorem C64_any_answer (pipe : List UdWord → Res (List UdWord)) (docs outs : List Document)
    (hb : ∀ d ∈ docs, Built d) (h : udProcessAll pipe docs = .ok outs) :
    List.Forall₂ (fun d d' =>
      (d'.text = d.text ∧ d'.sentences = d.sentences ∧ List.Forall₂ SamePlace d.tokens d'.tokens) ∨
      (d'.text = d.text ∧ d'.tokens = [] ∧ d'.sentences = [])) docs outs :=
  forall₂_imp_mem (mapM'_ok_iff.mp h) (fun d _ hd hd' => udProcess_structure (hb d hd).docOk hd')

example : FeatsWritable Demo.t0 := by
  intro p hp
  simp [Demo.t0] at hp
example : (udProcessAll (fun ws => .ok (ws.map (fun w => { w with upostag := ['N'], head := 0 }))) [Demo.doc]).map
      (fun ds => ds.flatMap (fun d => d.tokens.map (fun t => (t.pos.bind (fun p => p.upos), t.headDoc)))) =
    .ok [(some ['N'], some (-1)), (some ['N'], some (-1)), (some ['N'], some (-1)), (some ['N'], some (-1))] := by
  decide +kernel
/-- An answer without words drops all tokens. -/
example : (udProcessAll (fun _ => .ok []) [Demo.doc]).map (fun ds => ds.map (fun d => (d.text, d.tokens.length))) =
    .ok [(Demo.doc.text, 0)] := by decide +kernel

/-! ### C89 -/

/-- C89 (refuted): a model that leaves head and relation of its words as it got them, as a tagger does,
erases every head and every relation of the documents. -/
theorem C89_erased (pipe : List UdWord → Res (List UdWord)) (docs : List Document)
    (hb : ∀ d ∈ docs, Built d)
    (hp : ∀ d ∈ docs, ∀ s ∈ d.sentences, ∃ ws, pipe ((d.sentenceTokens s).map (toUd d.text)) = .ok ws ∧
      UdAnswer (s.stop - s.start) ws ∧
      ∀ (j : Nat) t w, (d.sentenceTokens s)[j]? = some t → ws[j]? = some w →
        w.head = (toUd d.text t).head ∧ w.deprel = (toUd d.text t).deprel) :
    ∃ outs, udProcessAll pipe docs = .ok outs ∧
      ∀ d' ∈ outs, ∀ t ∈ d'.tokens, t.headSent = none ∧ t.deprel = none := by
  have hp' : ∀ d ∈ docs, ∀ s ∈ d.sentences, ∃ ws, pipe ((d.sentenceTokens s).map (toUd d.text)) = .ok ws ∧
      UdAnswer (s.stop - s.start) ws := fun d hd s hs => by
    obtain ⟨ws, h1, h2, _⟩ := hp d hd s hs
    exact ⟨ws, h1, h2⟩
  obtain ⟨outs, h1, h2⟩ := C64_words pipe docs hb hp'
  refine ⟨outs, h1, fun d' hd' u hu => ?_⟩
  obtain ⟨d, hd, e0⟩ := forall₂_mem_right (mapM'_ok_iff.mp h1) hd'
  have hok := (hb d hd).docOk
  obtain ⟨d'', e1, _, e3, e4⟩ := udProcess_total hok (hp' d hd)
  have hdd : d' = d'' := by
    rw [e1] at e0
    injection e0 with e0
    exact e0.symm
  subst hdd
  obtain ⟨j, hj, hju⟩ := List.mem_iff_getElem.mp hu
  have hju' : d'.tokens[j]? = some u := by rw [List.getElem?_eq_getElem hj, hju]
  rcases udProcess_structure hok e0 with h5 | h5
  · have hlen := h5.2.2.length_eq
    obtain ⟨s, hs, h6, h7⟩ := hok.tiles.cover (Nat.zero_le j) (by omega)
    obtain ⟨ws, h8, _, h9⟩ := e4 s hs
    obtain ⟨ws', h10, h11, h12⟩ := hp d hd s hs
    rw [h8] at h10
    injection h10 with h10
    subst h10
    have hsl : ∀ (x : Document) y, x.tokens[j]? = some y → (x.sentenceTokens s)[j - s.start]? = some y := by
      intro x y hxy
      show (slice x.tokens s.start s.stop)[j - s.start]? = some y
      rw [slice_getElem?, if_pos (by omega), show s.start + (j - s.start) = j by omega]
      exact hxy
    have ht := List.getElem?_eq_getElem (show j < d.tokens.length by omega)
    have hw := List.getElem?_eq_getElem (show j - s.start < ws.length by rw [h11.1]; omega)
    have h13 := h9 (j - s.start) _ _ u (hsl d _ ht) hw (hsl d' u hju')
    obtain ⟨h14, h15⟩ := h12 (j - s.start) _ _ (hsl d _ ht) hw
    refine ⟨?_, ?_⟩
    · rw [h13.head, h14, (C64_input _ _).2.2.1]; rfl
    · rw [h13.deprel, h15, (C64_input _ _).2.2.2.1]; rfl
  · rw [h5.2.1] at hu
    cases hu

/-- C89, what holds: heads and relations of the result are those of the words the model answers with,
so they survive only if the model predicts them again. -/
theorem C89_from_answer_partial (pipe : List UdWord → Res (List UdWord)) (d : Document) (hb : Built d)
    (hp : ∀ s ∈ d.sentences, ∃ ws, pipe ((d.sentenceTokens s).map (toUd d.text)) = .ok ws ∧
      UdAnswer (s.stop - s.start) ws ∧
      ∀ (j : Nat) t w, (d.sentenceTokens s)[j]? = some t → ws[j]? = some w →
        t.headSent = (if w.head < 0 then none else some (w.head - 1)) ∧ t.deprel = clean (some w.deprel)) :
    ∃ d', udProcessAll pipe [d] = .ok [d'] ∧
      ∀ s ∈ d.sentences, ∀ (j : Nat) t u, (d.sentenceTokens s)[j]? = some t →
        (d'.sentenceTokens s)[j]? = some u → u.headSent = t.headSent ∧ u.deprel = t.deprel := by
  have hp' : ∀ s ∈ d.sentences, ∃ ws, pipe ((d.sentenceTokens s).map (toUd d.text)) = .ok ws ∧
      UdAnswer (s.stop - s.start) ws := fun s hs => by
    obtain ⟨ws, h1, h2, _⟩ := hp s hs
    exact ⟨ws, h1, h2⟩
  obtain ⟨d', e1, _, _, e4⟩ := udProcess_total hb.docOk hp'
  refine ⟨d', ?_, fun s hs j t u ht hu => ?_⟩
  · simp only [udProcessAll, mapM', e1]
  · obtain ⟨ws, h8, _, h9⟩ := e4 s hs
    obtain ⟨ws', h10, h11, h12⟩ := hp s hs
    rw [h8] at h10
    injection h10 with h10
    subst h10
    have hj := (List.getElem?_eq_some_iff.mp ht).1
    have hl : (d.sentenceTokens s).length ≤ s.stop - s.start := by
      show (slice d.tokens s.start s.stop).length ≤ _
      rw [slice_length]
      omega
    have hw := List.getElem?_eq_getElem (show j < ws.length by rw [h11.1]; omega)
    have h13 := h9 j t _ u ht hw hu
    obtain ⟨h14, h15⟩ := h12 j t _ ht hw
    exact ⟨h13.head.trans h14.symm, h13.deprel.trans h15.symm⟩

/-- The heads of a parsed document before and after an identical answer. -/
example : Demo.doc.tokens.map (fun t => t.headSent) ≠ [none, none, none, none] ∧
    (udProcessAll (fun ws => .ok ws) [Demo.doc]).map
      (fun ds => ds.flatMap (fun d => d.tokens.map (fun t => t.headSent))) =
    .ok [none, none, none, none] := by decide +kernel

/-! ### C90 -/

/-- C90 (refuted): not even for one input is `RuntimeError` raised. -/
theorem C90_refuted (p : TdPreds) (extraFields : List Str) (docs : List Document) :
    tdProcess false p extraFields docs ≠ .error .runtime := by
  simp [tdProcess]

/-- C90, what holds: nothing is returned outside of a `with` statement; `AttributeError` is raised. -/
theorem C90_partial (p : TdPreds) (extraFields : List Str) (docs : List Document) :
    tdProcess false p extraFields docs = .error .attribute ∧
    ∀ outs, tdProcess false p extraFields docs ≠ .ok outs := by
  simp [tdProcess]

end Verif
