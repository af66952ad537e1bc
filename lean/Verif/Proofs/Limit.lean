import Verif.Spec.Limit
import Verif.Proofs.RoundTrip3

/-! # Lemmas for C150: sentences in documents of different size -/

namespace Verif

/-- The view of a word, from its line. -/
def lineView (start stop : Nat) (sub : Nat) (repl : Option Str) (surface : Str) (p : PTok) : WordView :=
  ⟨start, stop, sub, repl, p.pos, p.lemma', p.deprel, p.head.map (· - 1), Dict.empty, p.text, surface⟩

def itemViews (off : Nat) : Item → List WordView
  | .word p => [lineView off (off + p.text.length) 0 none p.text p]
  | .multi h ws => ws.mapIdx fun i p => lineView off (off + h.text.length) i (some p.text) h.text p

def itemsViews : Nat → List Item → List WordView
  | _, [] => []
  | off, it :: its => itemViews off it ++ itemsViews (off + it.piece.length) its

theorem itemViews_heads (off : Nat) (it : Item) :
    (itemViews off it).map WordView.head = it.words.map (fun p => p.head.map (· - 1)) := by
  cases it with
  | word p => rfl
  | multi h ws =>
    simp only [itemViews, Item.words]
    apply List.ext_getElem
    · simp
    · intro i h1 h2
      simp [lineView]

theorem itemsViews_heads (off : Nat) (its : List Item) :
    (itemsViews off its).map WordView.head = (its.flatMap Item.words).map (fun p => p.head.map (· - 1)) := by
  induction its generalizing off with
  | nil => rfl
  | cons it its ih => simp only [itemsViews, List.map_append, itemViews_heads, ih, List.flatMap_cons]

theorem docText_here {text a post : Str} {off : Nat} {t : Token} (h : text.drop off = a ++ post) (h1 : t.start = off)
    (h2 : t.stop = off + a.length) : docText text t = a := by
  unfold docText slice
  rw [h1, h2, h]
  simp

theorem TokenOf.view {text : Str} {off base sub : Nat} {repl : Option Str} {p : PTok} {t : Token} {a post : Str}
    (ht : TokenOf off (off + a.length) sub repl p t) (h : text.drop off = a ++ post) (hb : base ≤ off)
    (hform : repl.getD a = p.text) :
    wordView text base t = lineView (off - base) (off - base + a.length) sub repl a p := by
  obtain ⟨h1, h2, h3, h4, h5, h6, h7, h8, h9⟩ := ht
  unfold wordView lineView tokText
  rw [docText_here h h1 h2, h3, h4, h5, h6, h7, h8, h9, h1, h2, hform]
  congr 1
  omega

theorem itemTokens_views {text post : Str} {off base : Nat} {it : Item} {ts : List Token} (ht : ItemTokens off it ts)
    (h : text.drop off = it.surface.text ++ post) (hb : base ≤ off) :
    ts.map (wordView text base) = itemViews (off - base) it := by
  cases it with
  | word p =>
    obtain ⟨t, rfl, h1⟩ := ht
    simp only [List.map_cons, List.map_nil, itemViews]
    rw [h1.view h hb rfl]
  | multi hd ws =>
    obtain ⟨hl, h1⟩ := ht
    apply List.ext_getElem
    · simp [itemViews, hl]
    · intro i h2 h3
      have hi : i < ts.length := by simpa using h2
      have hw : i < ws.length := hl ▸ hi
      simp only [List.getElem_map, itemViews, List.getElem_mapIdx]
      exact (h1 i _ _ (List.getElem?_eq_getElem hw) (List.getElem?_eq_getElem hi)).view h hb rfl

theorem itemsTokens_views {text post : Str} {off base : Nat} {its : List Item} {ts : List Token}
    (ht : ItemsTokens off its ts) (h : text.drop off = surfaceText its ++ post) (hb : base ≤ off) :
    ts.map (wordView text base) = itemsViews (off - base) its := by
  induction its generalizing off ts with
  | nil => cases ht; rfl
  | cons it its ih =>
    obtain ⟨a, b, rfl, h1, h2⟩ := ht
    rw [surfaceText_cons] at h
    have h3 : text.drop (off + it.piece.length) = surfaceText its ++ post := by
      rw [← List.drop_drop, h, List.append_assoc, List.drop_left]
    have h4 : text.drop off = it.surface.text ++ (spaceIf it.surface.spaceAfter ++ (surfaceText its ++ post)) := by
      rw [h]; simp [Item.piece]
    rw [List.map_append, itemTokens_views h1 h4 hb, ih h2 h3 (by omega), itemsViews]
    congr 2
    omega

theorem itemsTokens_first {off : Nat} {its : List Item} {ts : List Token} (ht : ItemsTokens off its ts) (hne : its ≠ [])
    (hw : ∀ it ∈ its, it.words ≠ []) : (ts.head?.map Token.start).getD 0 = off := by
  cases its with
  | nil => exact absurd rfl hne
  | cons it its =>
    obtain ⟨a, b, rfl, h1, _⟩ := ht
    have hl := h1.length
    have := List.length_pos_iff.2 (hw it (by simp))
    cases a with
    | nil => simp at hl; omega
    | cons t a => simp [(h1.span.2 t (by simp)).1]

/-- The sentences of a document, from its lines. -/
theorem sentences_views {d : Document} {sents : List (List Item)} {k off : Nat} {ss : List Sentence} {toks rest : List Token}
    {post : Str} (hb : Bounds k sents ss) (ht : ItemsTokens off sents.flatten toks) (hd : d.tokens.drop k = toks ++ rest)
    (htext : d.text.drop off = surfaceText sents.flatten ++ post) (hne : ∀ its ∈ sents, its ≠ [])
    (hw : ∀ it ∈ sents.flatten, it.words ≠ []) :
    ss.map d.sentenceView = sents.map (itemsViews 0) := by
  induction sents generalizing k off ss toks with
  | nil => cases hb; rfl
  | cons its sents ih =>
    obtain ⟨s, r, rfl, h1, h2, h3⟩ := hb
    rw [List.flatten_cons] at ht htext
    obtain ⟨x, y, rfl, h4, h5⟩ := ht.split
    have hx := h4.length
    have hts : d.sentenceTokens s = x := by
      unfold Document.sentenceTokens
      rw [h1, hd, h2, Nat.add_sub_cancel_left, ← hx, List.append_assoc, List.take_left]
    rw [surfaceText_append, List.append_assoc] at htext
    have h6 : d.text.drop (off + (surfaceText its).length) = surfaceText sents.flatten ++ post := by
      rw [← List.drop_drop, htext, List.drop_left]
    have h7 : d.tokens.drop s.stop = y ++ rest := by
      rw [h2, ← List.drop_drop, hd, ← hx, List.append_assoc, List.drop_left]
    rw [List.map_cons, List.map_cons, ih h3 h5 h7 h6 (fun i hi => hne i (by simp [hi])) (fun i hi => hw i (by simp [hi]))]
    congr 1
    unfold Document.sentenceView
    rw [hts, itemsTokens_first h4 (hne its (by simp)) (fun i hi => hw i (by simp [hi])), itemsTokens_views h4 htext (Nat.le_refl _),
      Nat.sub_self]

theorem DocOf.views {d : Document} {sents : List (List Item)} (h : DocOf sents d) (hne : ∀ its ∈ sents, its ≠ [])
    (hw : ∀ it ∈ sents.flatten, it.words ≠ []) : d.sentences.map d.sentenceView = sents.map (itemsViews 0) :=
  sentences_views (rest := []) (post := []) h.bounds h.tokens (by simp) (by simp [h.text]) hne hw

/-! ### Trees -/

/-- Whether a token is a root can be seen in the sentence. -/
def PlainHeads (ts : List Token) : Prop :=
  ∀ t ∈ ts, t.isRoot = (t.headSent == some (-1)) ∧ (t.headSent = none → t.headDoc = none)

/-- The words of a sentence form a tree, or have no heads. -/
def GoodSent (its : List Item) : Prop :=
  ∃ ts : List Token, ts.map Token.headSent = (its.flatMap Item.words).map (fun p => p.head.map (· - 1)) ∧ PlainHeads ts ∧
    (Headless ts ∨ IsTree ts)

theorem forest_congr {ts ts' : List Token} (h : ts.map Token.headSent = ts'.map Token.headSent) (hp : PlainHeads ts)
    (hp' : PlainHeads ts') (hf : Headless ts ∨ IsTree ts) : Headless ts' ∨ IsTree ts' := by
  have hl : ts.length = ts'.length := by simpa using congrArg List.length h
  have hget : ∀ i (h1 : i < ts.length) (h2 : i < ts'.length), ts[i].headSent = ts'[i].headSent := by
    intro i h1 h2
    have := congrArg (fun l => l[i]?) h
    simpa [h1, h2] using this
  rcases hf with hf | hf
  · left
    intro t ht
    obtain ⟨i, hi, rfl⟩ := List.mem_iff_getElem.1 ht
    have h1 := hget i (by omega) hi
    rw [(hf _ (List.getElem_mem (by omega : i < ts.length))).2] at h1
    exact ⟨(hp' _ ht).2 h1.symm, h1.symm⟩
  · right
    refine isTree_congr ?_ hf
    rw [List.forall₂_iff_get]
    refine ⟨hl, fun i h1 h2 => ?_⟩
    have h3 := hget i h1 h2
    simp only [List.get_eq_getElem]
    refine ⟨h3, ?_⟩
    rw [(hp _ (List.getElem_mem h1)).1, (hp' _ (List.getElem_mem h2)).1, h3]

/-- No word has a negative HEAD. -/
def WordHeads (its : List Item) : Prop := ∀ it ∈ its, ∀ p ∈ it.words, ∀ h, p.head = some h → 0 ≤ h

theorem plain_of_canon {k : Nat} {ts : List Token} (hc : ∀ t ∈ ts, CanonHeads k t)
    (hn : ∀ t ∈ ts, ∀ h, t.headSent = some h → -1 ≤ h) : PlainHeads ts := by
  intro t ht
  unfold Token.isRoot
  rcases hc t ht with ⟨h1, h2⟩ | ⟨h1, h2⟩ | ⟨w, h1, h2⟩
  · simp [h1, h2]
  · simp [h1, h2]
  · have := hn t ht w h1
    refine ⟨?_, fun h => by rw [h1] at h; cases h⟩
    rw [h1, h2]
    by_cases hw : w = -1
    · simp [hw]
    · have e1 : ((some (w + (k : Int)) : Option Int) == some (-1)) = false := by
        simp; omega
      rw [e1, Bool.false_or]

theorem sentence_heads (d : Document) (s : Sentence) :
    (d.sentenceTokens s).map Token.headSent = (d.sentenceView s).map WordView.head := by
  unfold Document.sentenceView
  rw [List.map_map]
  rfl

theorem head_of_view {d : Document} {s : Sentence} {its : List Item} (h : d.sentenceView s = itemsViews 0 its) (hw : WordHeads its) :
    ∀ t ∈ d.sentenceTokens s, ∀ v, t.headSent = some v → -1 ≤ v := by
  intro t ht v hv
  have h1 : t.headSent ∈ (d.sentenceTokens s).map Token.headSent := List.mem_map_of_mem ht
  rw [sentence_heads, h, itemsViews_heads, List.mem_map] at h1
  obtain ⟨p, hp, h2⟩ := h1
  rw [List.mem_flatMap] at hp
  obtain ⟨it, hit, hp⟩ := hp
  rw [hv] at h2
  cases hh : p.head with
  | none => rw [hh] at h2; cases h2
  | some x =>
    rw [hh] at h2
    simp only [Option.map_some, Option.some.injEq] at h2
    have := hw it hit p hp x hh
    omega

theorem DocOk.plain {d : Document} (hd : DocOk d) {s : Sentence} (hs : s ∈ d.sentences) {its : List Item}
    (h : d.sentenceView s = itemsViews 0 its) (hw : WordHeads its) : PlainHeads (d.sentenceTokens s) :=
  plain_of_canon (hd.canon_slice hs) (head_of_view h hw)

theorem forall₂_of_map_eq {α β γ : Type} {f : α → γ} {g : β → γ} : ∀ {l : List α} {m : List β}, l.map f = m.map g →
    List.Forall₂ (fun a b => f a = g b) l m
  | [], [], _ => .nil
  | [], b :: m, h => by cases h
  | a :: l, [], h => by cases h
  | a :: l, b :: m, h => by
    simp only [List.map_cons, List.cons.injEq] at h
    exact .cons h.1 (forall₂_of_map_eq h.2)

/-- A document that was read has good sentences. -/
theorem DocRaw.good {d : Document} {c : List (List Item)} (h : DocRaw c d) (hc : c ≠ []) (hne : ∀ its ∈ c, its ≠ [])
    (hw : ∀ it ∈ c.flatten, it.words ≠ []) (hh : ∀ its ∈ c, WordHeads its) : ∀ its ∈ c, GoodSent its := by
  intro its hits
  have hv := (h.docOf hc).views hne hw
  have hbv : BuiltValid d := by
    obtain ⟨toks, ss, _, _, _, h4⟩ := h
    exact ⟨_, _, _, h4⟩
  obtain ⟨s, hs, hsv⟩ := forall₂_exists_left (forall₂_of_map_eq hv) hits
  refine ⟨d.sentenceTokens s, ?_, hbv.built.docOk.plain hs hsv (hh its hits), hbv.trees s hs⟩
  rw [sentence_heads, hsv, itemsViews_heads]

theorem bounds_exists {sents : List (List Item)} (h : ∀ its ∈ sents, 0 < wordCount its) (k : Nat) : ∃ ss, Bounds k sents ss := by
  induction sents generalizing k with
  | nil => exact ⟨[], rfl⟩
  | cons its sents ih =>
    have h1 := h its (by simp)
    obtain ⟨ss, hss⟩ := ih (fun i hi => h i (by simp [hi])) (k + wordCount its)
    exact ⟨⟨k, k + wordCount its, by omega⟩ :: ss, _, _, rfl, rfl, rfl, hss⟩

/-- Good sentences can be put into a document. -/
theorem docRaw_exists {cols : Cols} {lines : List (List Str)} {c : List (List Item)} (hl : List.Forall₂ (ItemLines cols) lines c)
    (hc : c ≠ []) (hne : ∀ its ∈ c, its ≠ []) (hh : ∀ its ∈ c, WordHeads its) (hg : ∀ its ∈ c, GoodSent its) :
    ∃ d, DocRaw c d := by
  have hw : ∀ it ∈ c.flatten, it.words ≠ [] := by
    intro it hit
    obtain ⟨its, hits, hit⟩ := List.mem_flatten.mp hit
    obtain ⟨l, _, h1⟩ := forall₂_exists_left hl hits
    exact h1.words_ne it hit
  have hcount : ∀ its ∈ c, 0 < wordCount its := by
    intro its hits
    obtain ⟨l, _, h1⟩ := forall₂_exists_left hl hits
    rcases Nat.eq_zero_or_pos (wordCount its) with h0 | h0
    · exact absurd (h1.wordCount_eq_zero h0) (hne its hits)
    · exact h0
  obtain ⟨toks, htok, hnone⟩ := itemsTokens_exists hl 0
  obtain ⟨ss, hss⟩ := bounds_exists hcount 0
  have hpos := hss.wordCount_pos hc
  have htne : toks ≠ [] := by
    intro e; rw [← htok.length, e] at hpos; simp at hpos
  have htiles := hss.tiles
  rw [Nat.zero_add, ← htok.length] at htiles
  obtain ⟨d, hd⟩ := (C04_accepts_iff (text := surfaceText c.flatten) (sents := ss) htne).mpr
    ⟨toks, ss, .refl _, .refl _, htok.before.1, fun i hi => List.isChain_iff_getElem.mp (htok.numbered hw).1 i hi,
      htiles, by
        intro s _ j hj _ _ a b _ hb
        rw [hnone _ (List.getElem_mem hj)] at hb
        cases hb⟩
  refine ⟨d, toks, ss, htok, hnone, hss, C07_validation_iff_forest.mpr ⟨hd, ?_⟩⟩
  have hok := new_docOk hd
  have hdoc : DocOf c d := by
    obtain ⟨_, _, _, _, e1, hS, _⟩ := (Document.new_ok_iff htne).mp hd
    have hsort := pySorted_before htok.before.1
    have hsent : sortedSentences toks (some ss) = ss := by
      rw [sortedSentences_of_ne htne, pySorted_eq_self sentLe htiles.sorted]
    refine ⟨e1, htok.fill ?_, by rw [hS, hsent]; exact hss⟩
    have hf := new_forall₂ htne hd
    obtain ⟨_, hfill⟩ := new_tokens htne hd
    rw [hsort] at hf hfill
    rw [List.forall₂_iff_get] at hf ⊢
    refine ⟨hf.1, fun j hj hj' => ⟨hf.2 j hj hj', ?_⟩⟩
    rw [hS, hsent] at hfill
    obtain ⟨s, hs, c1, c2⟩ := htiles.cover (Nat.zero_le j) hj
    obtain ⟨t, t', g1, g2, g3⟩ := hfill s hs j c1 c2
    rw [List.getElem?_eq_getElem hj] at g1
    rw [List.getElem?_eq_getElem hj'] at g2
    injection g1 with g1; injection g2 with g2
    subst g1 g2
    exact g3.headSent (hnone _ (List.getElem_mem hj))
  have hv := hdoc.views hne hw
  intro s hs
  obtain ⟨its, hits, hsv⟩ := forall₂_exists_left (forall₂_of_map_eq hv.symm) hs
  have hsv := hsv.symm
  obtain ⟨ts, h1, h2, h3⟩ := hg its hits
  refine forest_congr ?_ h2 (hok.plain hs hsv (hh its hits)) h3
  rw [sentence_heads, hsv, itemsViews_heads, h1]

/-- Sentences can be distributed over documents. -/
theorem chunked_exists {n : Nat} (hn : 0 < n) : ∀ (m : Nat) (sents : List (List Item)), sents.length ≤ m →
    ∃ chunks, Chunked n sents chunks
  | 0, sents, h => by
    have : sents = [] := List.length_eq_zero_iff.1 (by omega)
    subst this
    exact ⟨[], rfl, by simp, by simp⟩
  | m + 1, sents, h => by
    by_cases h0 : sents = []
    · subst h0
      exact ⟨[], rfl, by simp, by simp⟩
    · have hpos := List.length_pos_iff.2 h0
      obtain ⟨chunks, h1, h2, h3⟩ := chunked_exists hn m (sents.drop n) (by simp; omega)
      refine ⟨sents.take n :: chunks, by simp [h1], ?_, ?_⟩
      · intro c hc
        rcases List.mem_cons.1 hc with rfl | hc
        · refine ⟨?_, by simp⟩
          intro he
          rcases List.take_eq_nil_iff.1 he with h | h
          · omega
          · exact h0 h
        · exact h2 c hc
      · intro c hc
        cases chunks with
        | nil => simp at hc
        | cons x xs =>
          rw [List.dropLast_cons_cons] at hc
          rcases List.mem_cons.1 hc with rfl | hc
          · rw [List.length_take]
            have : sents.drop n ≠ [] := by
              intro he
              rw [he] at h1
              have := (h2 x (by simp)).1
              simp only [List.flatten_cons, List.append_eq_nil_iff] at h1
              exact this h1.1
            have := List.length_pos_iff.2 this
            simp at this
            omega
          · exact h3 c hc

/-- The lines of the sentences. -/
theorem SentLines.items {cols : Cols} {ls : List Str} {sents : List (List Item)} (h : SentLines cols ls sents) :
    (∀ its ∈ sents, ∃ l, ItemLines cols l its ∧ ∀ x ∈ l, x ∈ ls) ∧ ∀ its ∈ sents, its ≠ [] := by
  induction h with
  | nil => simp
  | cons h1 h2 h3 ih =>
    constructor
    · intro its hits
      rcases List.mem_cons.1 hits with rfl | hits
      · exact ⟨_, h1, fun x hx => by simp [hx]⟩
      · obtain ⟨l, h4, h5⟩ := ih.1 its hits
        exact ⟨l, h4, fun x hx => by simp [h5 x hx]⟩
    · intro its hits
      rcases List.mem_cons.1 hits with rfl | hits
      · exact h2
      · exact ih.2 its hits

theorem itemLines_each {cols : Cols} {c : List (List Item)} (h : ∀ its ∈ c, ∃ l, ItemLines cols l its) :
    ∃ lines, List.Forall₂ (ItemLines cols) lines c := by
  induction c with
  | nil => exact ⟨[], .nil⟩
  | cons its c ih =>
    obtain ⟨l, hl⟩ := h its (by simp)
    obtain ⟨ls, hls⟩ := ih fun i hi => h i (by simp [hi])
    exact ⟨l :: ls, .cons hl hls⟩

/-- Every word has a line. -/
theorem ItemLines.word_line {cols : Cols} {ls : List Str} {its : List Item} (h : ItemLines cols ls its) :
    ∀ it ∈ its, ∀ p ∈ it.words, ∃ l ∈ ls, LineOf cols l p := by
  induction h with
  | nil => simp
  | skip _ _ _ _ ih =>
    intro it hit p hp
    obtain ⟨l, hl, h⟩ := ih it hit p hp
    exact ⟨l, by simp [hl], h⟩
  | word h1 _ _ _ _ _ ih =>
    intro it hit p hp
    rcases List.mem_cons.1 hit with rfl | hit
    · simp only [Item.words, List.mem_singleton] at hp
      subst hp
      exact ⟨_, by simp, h1⟩
    · obtain ⟨l, hl, h⟩ := ih it hit p hp
      exact ⟨l, by simp [hl], h⟩
  | multi _ _ _ _ _ _ _ _ _ hf _ ih =>
    intro it hit p hp
    rcases List.mem_cons.1 hit with rfl | hit
    · obtain ⟨l, hl, h⟩ := forall₂_exists_left hf hp
      exact ⟨l, by simp [hl], h⟩
    · obtain ⟨l, hl, h⟩ := ih it hit p hp
      exact ⟨l, by simp [hl], h⟩

end Verif
