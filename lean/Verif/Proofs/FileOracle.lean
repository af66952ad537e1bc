import Verif.Proofs.FileScore
import Verif.Proofs.FileLoad
import Verif.Props.WriteLoad

/-! # Documents read from a file that the evaluation can load can be written and loaded again -/

namespace Verif

/-! ### No tabs and newlines in values -/

theorem mem_of_joinWith {sep c : Char} {w : Str} {ws : List Str} (hw : w ∈ ws) (hc : c ∈ w) : c ∈ joinWith sep ws := by
  induction ws with
  | nil => simp at hw
  | cons x ws ih =>
    cases ws with
    | nil => rw [List.mem_singleton.mp hw] at hc; exact hc
    | cons y ws =>
      show c ∈ x ++ sep :: joinWith sep (y :: ws)
      rcases List.mem_cons.mp hw with rfl | hw
      · simp [hc]
      · have := ih hw; simp [this]

theorem splitOn1_not_mem {sep : Char} : ∀ {s : Str}, ∀ f ∈ splitOn1 sep s, sep ∉ f
  | [], f, h => by simp [splitOn1] at h; simp [h]
  | c :: cs, f, h => by
    have ih := splitOn1_not_mem (sep := sep) (s := cs)
    rw [splitOn1] at h
    split at h
    · rcases List.mem_cons.mp h with rfl | h
      · simp
      · exact ih f h
    · rename_i hn
      split at h
      · rename_i e; exact absurd e (splitOn1_ne_nil _ _)
      · rename_i w ws e
        rcases List.mem_cons.mp h with rfl | h
        · have := ih w (by rw [e]; simp)
          simp only [List.mem_cons, not_or]
          exact ⟨fun e => hn e.symm, this⟩
        · exact ih f (by rw [e]; simp [h])

theorem Plain.sub {a b : Str} (h : Plain b) (hs : ∀ c ∈ a, c ∈ b) : Plain a := ⟨fun m => h.1 (hs _ m), fun m => h.2 (hs _ m)⟩

theorem field_plain {l f : Str} (hn : '\n' ∉ l) (h : f ∈ splitOn1 '\t' l) : Plain f := by
  refine ⟨splitOn1_not_mem f h, fun hc => hn ?_⟩
  rw [← joinWith_splitOn1 '\t' l]
  exact mem_of_joinWith h hc

/-- The values of a line contain no tab and no newline. -/
structure LinePlain (p : PTok) : Prop where
  text : Plain p.text
  lemma' : ∀ s, p.lemma' = some s → Plain s
  deprel : ∀ s, p.deprel = some s → Plain s
  upos : ∀ q s, p.pos = some q → q.upos = some s → Plain s
  xpos : ∀ q s, p.pos = some q → q.xpos = some s → Plain s
  feats : ∀ q, p.pos = some q → ∀ e ∈ q.feats.entries, Plain e.1 ∧ Plain e.2

theorem selCell_plain {cols : Cols} {r : List Str} {c : Nat} {v : Option Str} (hr : ∀ f ∈ r, Plain f) (h : SelCell cols r c v) :
    ∀ s, v = some s → Plain s := by
  rintro s rfl
  rcases h with ⟨_, x, h1, ⟨_, h2⟩ | ⟨_, h2⟩⟩ | ⟨_, h⟩
  · cases h2
  · injection h2 with h2; subst h2; exact hr _ (List.mem_of_getElem? h1)
  · cases h

theorem isAttr_sub {part a b : Str} (h : IsAttr part a b) : (∀ c ∈ a, c ∈ part) ∧ ∀ c ∈ b, c ∈ part := by
  obtain ⟨_, _, rfl | ⟨r, rfl⟩⟩ := h
  · constructor <;> intro c hc <;> simp [hc]
  · constructor <;> intro c hc <;> simp [hc]

theorem attrs_plain {f : Option Str} {d : Dict Str Str} (h : Attrs f d) (hf : ∀ s, f = some s → Plain s) :
    ∀ e ∈ d.entries, Plain e.1 ∧ Plain e.2 := by
  intro e he
  have hg : d.get? e.1 = some e.2 := (Dict.get?_mem ..).mpr he
  cases f with
  | none => rw [h] at hg; cases hg
  | some f =>
    obtain ⟨parts, pairs, _, _, h3, h4, h5⟩ := h
    rw [h5, Option.map_eq_some_iff] at hg
    obtain ⟨x, hx, h6⟩ := hg
    have hk := List.find?_some hx
    simp only [decide_eq_true_eq] at hk
    have hm := List.mem_reverse.mp (List.mem_of_find?_eq_some hx)
    obtain ⟨i, hi, e1⟩ := List.getElem_of_mem hm
    have := (List.forall₂_iff_get.mp h4).2 i (h4.length_eq ▸ hi) hi
    simp only [List.get_eq_getElem, e1] at this
    obtain ⟨s1, s2⟩ := isAttr_sub this
    have hp := hf f rfl
    have hsub : ∀ c ∈ parts[i]'(h4.length_eq ▸ hi), c ∈ f := by
      intro c hc
      rw [h3]; exact mem_of_joinWith (List.getElem_mem _) hc
    rw [← hk, ← h6]
    exact ⟨hp.sub fun c hc => hsub c (s1 c hc), hp.sub fun c hc => hsub c (s2 c hc)⟩

theorem lineOf_plain {cols : Cols} {l : Str} {p : PTok} (hn : '\n' ∉ l) (h : LineOf cols l p) : LinePlain p := by
  have hm := C80_line_content h.2
  have hr : ∀ f ∈ splitOn1 '\t' l, Plain f := fun f hf => field_plain hn hf
  have hpos : ∀ q, p.pos = some q → (∀ s, q.upos = some s → Plain s) ∧ (∀ s, q.xpos = some s → Plain s) ∧
      ∀ e ∈ q.feats.entries, Plain e.1 ∧ Plain e.2 := by
    intro q hq
    by_cases hc : colUPOS ∈ cols ∨ colXPOS ∈ cols ∨ colFEATS ∈ cols
    · obtain ⟨q', f, g1, g2, g3, g4, g5⟩ := hm.pos hc
      rw [hq] at g1; injection g1 with g1; subst g1
      exact ⟨selCell_plain hr g2, selCell_plain hr g3, attrs_plain g5 (selCell_plain hr g4)⟩
    · rw [hm.noPos hc] at hq; cases hq
  exact ⟨hr _ (List.mem_of_getElem? hm.text), selCell_plain hr hm.lemma', selCell_plain hr hm.deprel,
    fun q s hq => (hpos q hq).1 s, fun q s hq => (hpos q hq).2.1 s, fun q hq => (hpos q hq).2.2⟩

/-- All lines of the unit are plain. -/
def ItemPlain (it : Item) : Prop := LinePlain it.surface ∧ ∀ p ∈ it.words, LinePlain p

theorem itemLines_plain {cols : Cols} {ls : List Str} {its : List Item} (h : ItemLines cols ls its)
    (hn : ∀ l ∈ ls, '\n' ∉ l) : ∀ it ∈ its, ItemPlain it := by
  induction h with
  | nil => simp
  | skip _ _ _ _ ih => exact ih (fun l hl => hn l (List.mem_cons_of_mem _ hl))
  | word h1 _ _ _ _ _ ih =>
    have hp := lineOf_plain (hn _ List.mem_cons_self) h1
    intro it hit
    rcases List.mem_cons.mp hit with rfl | hit
    · exact ⟨hp, by simpa [Item.words] using hp⟩
    · exact ih (fun l hl => hn l (List.mem_cons_of_mem _ hl)) it hit
  | multi h1 _ _ _ _ _ _ _ _ hw _ ih =>
    have hp := lineOf_plain (hn _ List.mem_cons_self) h1
    intro it hit
    rcases List.mem_cons.mp hit with rfl | hit
    · refine ⟨hp, ?_⟩
      intro p hpw
      rw [Item.words] at hpw
      obtain ⟨i, hi, e⟩ := List.getElem_of_mem hpw
      have := (List.forall₂_iff_get.mp hw).2 i (hw.length_eq ▸ hi) hi
      simp only [List.get_eq_getElem, e] at this
      exact lineOf_plain (hn _ (List.mem_cons_of_mem _ (List.mem_append_left _ (List.getElem_mem _)))) this
    · exact ih (fun l hl => hn l (List.mem_cons_of_mem _ (List.mem_append_right _ hl))) it hit

theorem sentLines_plain {cols : Cols} {ls : List Str} {items : List (List Item)} (h : SentLines cols ls items)
    (hn : ∀ l ∈ ls, '\n' ∉ l) : ∀ its ∈ items, ∀ it ∈ its, ItemPlain it := by
  induction h with
  | nil => simp
  | cons h1 _ _ ih =>
    intro its hi
    rcases List.mem_cons.mp hi with rfl | hi
    · exact itemLines_plain h1 fun l hl => hn l (by simp [hl])
    · exact ih (fun l hl => hn l (by simp [hl])) its hi

theorem fileLines_newline : ∀ {text : Str}, ∀ l ∈ fileLines text, '\n' ∉ l.dropLast
  | [], l, h => by simp [fileLines] at h
  | c :: cs, l, h => by
    have ih := fileLines_newline (text := cs)
    rw [fileLines] at h
    split at h
    · rcases List.mem_cons.mp h with rfl | h
      · simp
      · exact ih l h
    · rename_i hn
      split at h
      · rw [List.mem_singleton.mp h]; simp
      · rename_i w ws e
        rcases List.mem_cons.mp h with rfl | h
        · have := ih w (by rw [e]; simp)
          cases w with
          | nil => simp
          | cons x w =>
            rw [List.dropLast_cons_cons, List.mem_cons, not_or]
            exact ⟨fun e => hn e.symm, this⟩
        · exact ih l (by rw [e]; simp [h])

theorem rstripEol_newline {l : Str} (h : '\n' ∉ l.dropLast) : '\n' ∉ rstripEol l := by
  rcases List.eq_nil_or_concat l with rfl | ⟨a, x, rfl⟩
  · simp [rstripEol]
  · rw [List.concat_eq_append] at *
    rw [List.dropLast_concat] at h
    unfold rstripEol
    rw [List.reverse_append, List.reverse_singleton, List.singleton_append, List.mem_reverse]
    intro hc
    by_cases hx : isEol x = true
    · rw [List.dropWhile_cons_of_pos hx] at hc
      exact h (List.mem_reverse.mp ((List.dropWhile_sublist _).mem hc))
    · rw [List.dropWhile_cons_of_neg hx] at hc
      rcases List.mem_cons.mp hc with rfl | hc
      · exact hx (by decide)
      · exact h (List.mem_reverse.mp hc)

theorem udFileLines_newline {text : Str} : ∀ l ∈ udFileLines text, '\n' ∉ l := by
  intro l hl
  obtain ⟨x, hx, rfl⟩ := List.mem_map.mp hl
  exact rstripEol_newline (fileLines_newline x hx)

theorem itemsTokens_of : ∀ {its : List Item} {off : Nat} {toks : List Token}, ItemsTokens off its toks → ∀ t ∈ toks,
    ∃ it ∈ its, ∃ p ∈ it.words, ∃ a b sub repl, TokenOf a b sub repl p t ∧ (repl = none ∨ repl = some p.text)
  | [], _, toks, h, t, ht => by rw [ItemsTokens] at h; simp [h] at ht
  | it :: its, off, toks, h, t, ht => by
    obtain ⟨x, y, rfl, h1, h2⟩ := h
    rcases List.mem_append.mp ht with ht | ht
    · cases it with
      | word p =>
        obtain ⟨u, rfl, hu⟩ := h1
        rw [List.mem_singleton.mp ht]
        exact ⟨_, List.mem_cons_self, p, by simp [Item.words], _, _, _, _, hu, .inl rfl⟩
      | multi hd ws =>
        obtain ⟨hl, hu⟩ := h1
        obtain ⟨i, hi, e⟩ := List.getElem_of_mem ht
        have hi' : i < ws.length := hl ▸ hi
        have := hu i ws[i] t (List.getElem?_eq_getElem hi') (by rw [List.getElem?_eq_getElem hi, e])
        exact ⟨_, List.mem_cons_self, ws[i], List.getElem_mem _, _, _, _, _, this, .inr rfl⟩
    · obtain ⟨it', a, b⟩ := itemsTokens_of h2 t ht
      exact ⟨it', List.mem_cons_of_mem _ a, b⟩

theorem surfaceText_plain {its : List Item} (h : ∀ it ∈ its, ItemPlain it) : Plain (surfaceText its) := by
  apply Plain.of_mem
  intro c hc
  obtain ⟨it, hit, hc⟩ := List.mem_flatMap.mp hc
  rcases List.mem_append.mp hc with hc | hc
  · have := (h it hit).1.text
    exact ⟨fun e => this.1 (e ▸ hc), fun e => this.2 (e ▸ hc)⟩
  · have : c = ' ' := by
      revert hc; unfold spaceIf; split <;> simp
    subst this; decide

theorem docOf_plain {c : List (List Item)} {d : Document} (h : DocOf c d) (hp : ∀ its ∈ c, ∀ it ∈ its, ItemPlain it) :
    ∀ t ∈ d.tokens, TokenPlain d.text t := by
  have hp' : ∀ it ∈ c.flatten, ItemPlain it := by
    intro it hit
    obtain ⟨its, a, b⟩ := List.mem_flatten.mp hit
    exact hp its a it b
  intro t ht
  obtain ⟨it, hit, p, hpw, a, b, sub, repl, g1, g2⟩ := itemsTokens_of h.tokens t ht
  have hl := (hp' it hit).2 p hpw
  have hd : Plain (docText d.text t) := by
    rw [h.text]
    refine (surfaceText_plain hp').sub ?_
    intro x hx
    unfold docText slice at hx
    exact List.mem_of_mem_drop (List.mem_of_mem_take hx)
  refine ⟨?_, hd, ?_, ?_, ?_, ?_, ?_⟩
  · unfold tokText
    rw [g1.repl]
    rcases g2 with rfl | rfl
    · exact hd
    · exact hl.text
  · rw [g1.lemma']; exact hl.lemma'
  · rw [g1.deprel]; exact hl.deprel
  · rw [g1.pos]; exact hl.upos
  · rw [g1.pos]; exact hl.xpos
  · rw [g1.pos]; exact hl.feats

/-! ### Forms -/

theorem tokensAs_forms {R : Bool → Nat → Token → List Str → Prop} {text : Str} {k : Nat} {toks : List Token} {us : List UdToken}
    (h : TokensAs R text k toks us) (hf : ∀ u ∈ us, u.form ≠ []) : ∀ t ∈ toks, noSpaces (docText text t) ≠ [] := by
  induction h with
  | nil => simp
  | word _ _ _ ih =>
    intro t ht
    rcases List.mem_cons.mp ht with rfl | ht
    · exact hf _ List.mem_cons_self
    · exact ih (fun u hu => hf u (List.mem_cons_of_mem _ hu)) t ht
  | multi _ h2 _ _ _ ih =>
    have h0 := hf _ List.mem_cons_self
    intro t ht
    rcases List.mem_cons.mp ht with rfl | ht
    · exact h0
    · rcases List.mem_append.mp ht with ht | ht
      · have := h2 t ht
        unfold Token.coincides at this
        simp only [Bool.and_eq_true, beq_iff_eq] at this
        unfold docText at h0 ⊢
        rw [← this.1, ← this.2]; exact h0
      · exact ih (fun u hu => hf u (List.mem_cons_of_mem _ hu)) t ht

/-! ### Heads -/

theorem single_heads {d : Document} (h : BuiltValid d) (h1 : d.sentences.length ≤ 1) :
    ∀ t ∈ d.tokens, ∀ v, t.headSent = some v → -1 ≤ v := by
  intro t ht v hv
  have hok := h.built.docOk
  obtain ⟨s, hs, i, hi⟩ : ∃ s ∈ d.sentences, ∃ i : Nat, (d.sentenceTokens s)[i]? = some t := by
    have e := allTokens_eq (docs := [d]) (by simpa using h.built)
    have ht' : t ∈ allTokens [d] := by simpa [allTokens] using ht
    rw [← e] at ht'
    obtain ⟨p, hp, ht'⟩ := List.mem_flatMap.mp ht'
    obtain ⟨d', hd', hp⟩ := List.mem_flatMap.mp hp
    rw [List.mem_singleton.mp hd'] at hp
    obtain ⟨s, hs, rfl⟩ := List.mem_map.mp hp
    obtain ⟨i, hi, e⟩ := List.getElem_of_mem ht'
    exact ⟨s, hs, i, by rw [List.getElem?_eq_getElem hi, e]⟩
  have hstart : s.start = 0 := by
    have ht := hok.tiles
    match hd : d.sentences with
    | [] => rw [hd] at hs; simp at hs
    | [x] =>
      rw [hd] at hs ht
      rw [List.mem_singleton.mp hs]
      exact ht.1
    | _ :: _ :: _ => rw [hd] at h1; simp at h1
  have hc := hok.canon_slice hs t (List.mem_of_getElem? hi)
  rw [hstart] at hc
  rcases h.forest s hs with hl | htree
  · rw [(hl t (List.mem_of_getElem? hi)).2] at hv; cases hv
  · cases htree.2 i (List.getElem?_eq_some_iff.1 hi).1 with
    | root g1 g2 =>
      rw [hi] at g1; injection g1 with g1; subst g1
      unfold Token.isRoot at g2
      simp only [Bool.or_eq_true, beq_iff_eq] at g2
      rcases hc with ⟨g, _⟩ | ⟨g, _⟩ | ⟨x, g, g'⟩
      · rw [g] at hv; cases hv
      · rw [g] at hv; injection hv with hv; omega
      · rw [g] at hv; injection hv with hv; subst hv
        rcases g2 with g2 | g2
        · rw [g'] at g2; injection g2 with g2; omega
        · rw [g] at g2; injection g2 with g2; omega
    | step g1 _ g3 _ =>
      rw [hi] at g1; injection g1 with g1; subst g1
      rw [g3] at hv; injection hv with hv; omega

theorem writtenArcs_heads (cols : Cols) : ∀ (k : Nat) (ts : List Token),
    (writtenArcs cols k ts).map Prod.fst = writtenHeads cols k ts
  | _, [] => rfl
  | k, t :: ts => by rw [writtenArcs, List.map_cons, writtenHeads, writtenArcs_heads cols (k + 1) ts]

theorem rowArc_heads {rs : List (List Str)} {as : List (Int × Str)} (h : List.Forall₂ RowArc rs as) :
    HeadsOf rs (as.map Prod.fst) := by
  unfold HeadsOf
  rw [List.forall₂_map_right_iff]
  exact h.imp fun _ _ h => h.1

theorem writtenHeads_nonneg {cols : Cols} : ∀ {k : Nat} {ts : List Token},
    (∀ t ∈ ts, ∀ v, t.headSent = some v → -1 ≤ v) → ∀ x ∈ writtenHeads cols k ts, 0 ≤ x
  | _, [], _, x, hx => by simp [writtenHeads] at hx
  | k, t :: ts, h, x, hx => by
    rcases List.mem_cons.mp hx with rfl | hx
    · unfold writtenHead
      split
      · split
        · rename_i v hv
          have := h t List.mem_cons_self v hv
          omega
        · exact Int.natCast_nonneg _
      · exact Int.natCast_nonneg _
    · exact writtenHeads_nonneg (fun t ht => h t (List.mem_cons_of_mem _ ht)) x hx

theorem allArcs_nonneg {columns : Cols} {docs : List Document}
    (h : ∀ d ∈ docs, ∀ t ∈ d.tokens, ∀ v, t.headSent = some v → -1 ≤ v) : ∀ a ∈ allArcs columns docs, 0 ≤ a.1 := by
  intro a ha
  obtain ⟨p, hp, ha⟩ := List.mem_flatMap.mp ha
  obtain ⟨d, hd, hp⟩ := List.mem_flatMap.mp hp
  obtain ⟨s, hs, rfl⟩ := List.mem_map.mp hp
  refine writtenHeads_nonneg (cols := withHead columns) (k := 0) (ts := d.sentenceTokens s)
    (fun t ht => h d hd t (sentence_token_mem ht)) a.1 ?_
  rw [← writtenArcs_heads]
  exact List.mem_map_of_mem ha

/-! ### Written and loaded again -/

/-- What is known of the documents of a file that is also accepted by the evaluation. -/
theorem read_again {text : Str} {docs : List Document} {depth : Nat} {ud : UD} (hr : '\r' ∉ text)
    (hc : CommentsPlain text) (h1 : readFromStr 1 defaultCols text = .ok (docs, none))
    (h2 : loadConllu depth text = .ok ud) :
    (∀ d ∈ docs, BuiltValid d) ∧ (∀ d ∈ docs, Loadable d) ∧
    (∀ d ∈ docs, ∀ t ∈ d.tokens, ∀ v, t.headSent = some v → -1 ≤ v) ∧
    ∀ p ∈ sentencesOf docs, HeadTree (writtenHeads (withHead defaultCols) 0 p.2) ∧
      Shallow depth (writtenHeads (withHead defaultCols) 0 p.2) := by
  obtain ⟨sents, k1, k2, k3⟩ := read_load hr hc h1 h2
  obtain ⟨_, items, chunks, g1, g2, g3⟩ := C16_accepts_iff.mp h1
  rw [contentLines_eq hr] at g1
  have hpl := sentLines_plain g1 (fun l hl => udFileLines_newline l (List.mem_filter.mp hl).1)
  have hdoc : ∀ d ∈ docs, ∃ c ∈ chunks, DocRaw c d := by
    intro d hd
    obtain ⟨i, hi, e⟩ := List.getElem_of_mem hd
    have := (List.forall₂_iff_get.mp g3).2 i (g3.length_eq ▸ hi) hi
    simp only [List.get_eq_getElem, e] at this
    exact ⟨_, List.getElem_mem _, this⟩
  have hv : ∀ d ∈ docs, BuiltValid d := by
    intro d hd
    obtain ⟨c, _, toks, ss, _, _, _, h⟩ := hdoc d hd
    exact ⟨_, _, _, h⟩
  have hlen : ∀ d ∈ docs, d.sentences.length ≤ 1 := by
    intro d hd
    obtain ⟨c, hcm, h⟩ := hdoc d hd
    have := (h.docOf (g2.size c hcm).1).bounds.length
    rw [this]; exact (g2.size c hcm).2
  have hheads : ∀ d ∈ docs, ∀ t ∈ d.tokens, ∀ v, t.headSent = some v → -1 ≤ v :=
    fun d hd => single_heads (hv d hd) (hlen d hd)
  refine ⟨hv, ?_, hheads, ?_⟩
  · intro d hd
    obtain ⟨c, hcm, h⟩ := hdoc d hd
    refine ⟨docOf_plain (h.docOf (g2.size c hcm).1) ?_, ?_, ?_⟩
    · intro its hits
      refine hpl its ?_
      rw [← g2.flatten]; exact List.mem_flatten.mpr ⟨c, hcm, hits⟩
    · intro t ht
      have e := allTokens_eq (docs := [d]) (by simpa using (hv d hd).built)
      have ht' : t ∈ allTokens [d] := by simpa [allTokens] using ht
      rw [← e] at ht'
      obtain ⟨p, hp, ht'⟩ := List.mem_flatMap.mp ht'
      obtain ⟨d', hd', hp⟩ := List.mem_flatMap.mp hp
      rw [List.mem_singleton.mp hd'] at hp
      have hp' : p ∈ sentencesOf docs := List.mem_flatMap.mpr ⟨d, hd, hp⟩
      obtain ⟨s, hs, rfl⟩ := List.mem_map.mp hp
      obtain ⟨i, hi, e⟩ := List.getElem_of_mem hp'
      have := (List.forall₂_iff_get.mp k3).2 i hi (k3.length_eq ▸ hi)
      simp only [List.get_eq_getElem, e] at this
      exact tokensAs_forms this (fun u hu => (UdSents.forms k1 _ (List.getElem_mem _) u hu).1) t ht'
    · have := hlen d hd
      rcases hd' : d.sentences with _ | ⟨x, _ | ⟨y, ys⟩⟩
      · simp
      · simp
      · rw [hd'] at this; simp at this
  · have harcs := sentence_arcs (cols := withHead defaultCols) (fun t => FileRow.showsArc t) k3
    rw [List.forall₂_map_right_iff] at harcs
    have hn : ∀ us ∈ sents, ∃ hs, HeadsOf (rowsOf us) hs ∧ ∀ x ∈ hs, 0 ≤ x := by
      intro us hus
      obtain ⟨i, hi, e⟩ := List.getElem_of_mem hus
      have hi' : i < (sentencesOf docs).length := harcs.length_eq ▸ hi
      have := (List.forall₂_iff_get.mp harcs).2 i hi hi'
      simp only [List.get_eq_getElem, e] at this
      refine ⟨_, rowArc_heads this, ?_⟩
      rw [writtenArcs_heads]
      have hm := List.getElem_mem hi'
      obtain ⟨d, hd, hp⟩ := List.mem_flatMap.mp hm
      obtain ⟨s, hs, hp⟩ := List.mem_map.mp hp
      rw [← hp]
      exact writtenHeads_nonneg fun t ht => hheads d hd t (sentence_token_mem ht)
    have hall := (C78_accepts_iff k1 hn).mp ⟨ud, h2⟩
    intro p hp
    obtain ⟨i, hi, e⟩ := List.getElem_of_mem hp
    have hi' : i < sents.length := harcs.length_eq ▸ hi
    have := (List.forall₂_iff_get.mp harcs).2 i hi' hi
    simp only [List.get_eq_getElem, e] at this
    have hh := rowArc_heads this
    rw [writtenArcs_heads] at hh
    obtain ⟨hs, q1, q2, q3⟩ := hall _ (List.getElem_mem hi')
    rw [headsOf_unique hh q1]
    exact ⟨q2, q3⟩

end Verif
