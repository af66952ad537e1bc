import Verif.Model.Repr
import Verif.Props.DocStr
import Verif.Proofs.Text

/-!
# What the representation of a document tells (C151)
-/

namespace Verif

/-! ### Auxiliary lemmas -/

/-- A list of characters satisfying `P` in front of one that does not can be told from the whole. -/
theorem span_split {P : Char → Prop} : ∀ {a b : Str} {c d : Char} {x y : Str}, (∀ e ∈ a, P e) → (∀ e ∈ b, P e) →
    ¬ P c → ¬ P d → a ++ c :: x = b ++ d :: y → a = b ∧ c :: x = d :: y
  | [], [], _, _, _, _, _, _, _, _, h => ⟨rfl, h⟩
  | [], e :: b, c, d, x, y, _, hb, hc, _, h => by
    simp only [List.nil_append, List.cons_append, List.cons.injEq] at h
    exact absurd (h.1 ▸ hb e (by simp)) hc
  | e :: a, [], c, d, x, y, ha, _, _, hd, h => by
    simp only [List.nil_append, List.cons_append, List.cons.injEq] at h
    exact absurd (h.1 ▸ ha e (by simp)) hd
  | e :: a, e' :: b, c, d, x, y, ha, hb, hc, hd, h => by
    simp only [List.cons_append, List.cons.injEq] at h
    obtain ⟨h1, h2⟩ := span_split (fun f hf => ha f (by simp [hf])) (fun f hf => hb f (by simp [hf])) hc hd h.2
    exact ⟨by rw [h.1, h1], h2⟩

/-- The characters of a printed number. -/
def NumChar (c : Char) : Prop := c = '-' ∨ (48 ≤ c.toNat ∧ c.toNat ≤ 57)

instance : DecidablePred NumChar := fun c => by unfold NumChar; infer_instance

theorem intStr_numChar (i : Int) : ∀ c ∈ intStr i, NumChar c := fun c h => by
  cases i with
  | ofNat n => exact .inr (natStr_digit h)
  | negSucc n =>
    rcases List.mem_cons.mp h with rfl | h
    · exact .inl rfl
    · exact .inr (natStr_digit h)

/-- A string that begins with a character that is not part of a number. -/
def Stops (s : Str) : Prop := s.head?.map (fun c => decide (NumChar c)) = some false

instance : DecidablePred Stops := fun s => by unfold Stops; infer_instance

theorem Stops.cons {s : Str} (h : Stops s) : ∃ c t, s = c :: t ∧ ¬ NumChar c := by
  cases s with
  | nil => simp [Stops] at h
  | cons c t => exact ⟨c, t, rfl, by simpa [Stops] using h⟩

theorem intStr_split {i j : Int} {s t x y : Str} (hs : Stops s) (ht : Stops t)
    (h : intStr i ++ (s ++ x) = intStr j ++ (t ++ y)) : i = j ∧ s ++ x = t ++ y := by
  obtain ⟨c, s, rfl, hc⟩ := hs.cons
  obtain ⟨d, t, rfl, hd⟩ := ht.cons
  obtain ⟨h1, h2⟩ := span_split (intStr_numChar i) (intStr_numChar j) hc hd h
  have := pyInt_intStr i
  rw [h1, pyInt_intStr j] at this
  exact ⟨(Except.ok.inj this).symm, h2⟩

theorem natStr_split {i j : Nat} {s t x y : Str} (hc : Stops s) (hd : Stops t)
    (h : natStr i ++ (s ++ x) = natStr j ++ (t ++ y)) : i = j ∧ s ++ x = t ++ y := by
  obtain ⟨h1, h2⟩ := intStr_split (i := (i : Int)) (j := (j : Int)) hc hd h
  exact ⟨by omega, h2⟩

theorem reprIdx_split {i j : Option Int} {s t x y : Str} (hc : Stops s) (hd : Stops t)
    (h : reprIdx i ++ (s ++ x) = reprIdx j ++ (t ++ y)) : i = j ∧ s ++ x = t ++ y := by
  have hn : ∀ (i : Int) (x y : Str), intStr i ++ x ≠ 'N' :: y := by
    intro i x y h
    cases hi : intStr i with
    | nil => exact intStr_ne_nil i hi
    | cons a l =>
      rw [hi] at h
      have : NumChar 'N' := by
        have := intStr_numChar i a (by simp [hi])
        rwa [(List.cons.inj h).1] at this
      exact absurd this (by decide)
  cases i with
  | none =>
    cases j with
    | none => exact ⟨rfl, List.append_cancel_left h⟩
    | some j => exact absurd h.symm (hn j _ _)
  | some i =>
    cases j with
    | none => exact absurd h (hn i _ _)
    | some j =>
      obtain ⟨h1, h2⟩ := intStr_split hc hd h
      exact ⟨by rw [h1], h2⟩

theorem posRepr_split {reprStr : Str → Str} (hq : Quoting reprStr) {p q : Pos} {x y : Str}
    (h : p.repr reprStr ++ x = q.repr reprStr ++ y) : p = q ∧ x = y := by
  unfold Pos.repr reprDict at h
  simp only [List.append_assoc, List.cons_append] at h
  obtain ⟨h1, h2⟩ := reprOpt_split hq (List.append_cancel_left h)
  obtain ⟨h3, h4⟩ := reprOpt_split hq (List.append_cancel_left h2)
  have h5 := List.append_cancel_left h4
  simp only [List.cons.injEq, true_and] at h5
  obtain ⟨h6, h7⟩ := reprItems_split hq (x := '}' :: x) (y := '}' :: y) (by simpa using h5)
  refine ⟨?_, by simpa using h7⟩
  cases p
  cases q
  simp only at h1 h3 h6
  subst h1 h3
  congr
  exact Dict.ext h6

theorem none_letters : "None".toList = ['N', 'o', 'n', 'e'] := by decide
theorem upos_letters : "{'upos': ".toList = '{' :: "'upos': ".toList := by decide
theorem start_letters : "{'start': ".toList = '{' :: "'start': ".toList := by decide
theorem start_token_letters : "{'start_token': ".toList = '{' :: "'start_token': ".toList := by decide

theorem pos_brace (reprStr : Str → Str) (p : Pos) : ∃ t, p.repr reprStr = '{' :: t := by
  unfold Pos.repr
  rw [upos_letters]
  simp only [List.cons_append]
  exact ⟨_, rfl⟩

theorem token_brace (reprStr : Str → Str) (t : Token) : ∃ s, t.repr reprStr = '{' :: s := by
  unfold Token.repr
  rw [start_letters]
  split <;> (simp only [List.cons_append]; exact ⟨_, rfl⟩)

theorem sentence_brace (s : Sentence) : ∃ t, s.repr = '{' :: t := by
  unfold Sentence.repr
  rw [start_token_letters]
  simp only [List.cons_append]
  exact ⟨_, rfl⟩

theorem reprPos_split {reprStr : Str → Str} (hq : Quoting reprStr) {p q : Option Pos} {x y : Str}
    (h : reprPos reprStr p ++ x = reprPos reprStr q ++ y) : p = q ∧ x = y := by
  cases p with
  | none =>
    cases q with
    | none => exact ⟨rfl, List.append_cancel_left h⟩
    | some q =>
      obtain ⟨t, ht⟩ := pos_brace reprStr q
      simp only [reprPos, ht, none_letters, List.cons_append, List.cons.injEq] at h
      exact absurd h.1 (by decide)
  | some p =>
    cases q with
    | none =>
      obtain ⟨t, ht⟩ := pos_brace reprStr p
      simp only [reprPos, ht, none_letters, List.cons_append, List.cons.injEq] at h
      exact absurd h.1 (by decide)
    | some q =>
      obtain ⟨h1, h2⟩ := posRepr_split hq h
      exact ⟨by rw [h1], h2⟩

/-- A printed list of items that begin with a brace and can be told apart. -/
theorem items_split {α β : Type} {f : α → Str} {g : α → β} {c : Char} (hc : c ≠ '{') (hc' : c ≠ ',')
    (hb : ∀ a, ∃ t, f a = '{' :: t)
    (hs : ∀ a b x y, f a ++ x = f b ++ y → g a = g b ∧ x = y) : ∀ {l m : List α} {x y : Str},
    List.intercalate ", ".toList (l.map f) ++ c :: x = List.intercalate ", ".toList (m.map f) ++ c :: y →
    l.map g = m.map g ∧ x = y
  | [], [], x, y, h => ⟨rfl, by simpa using h⟩
  | [], b :: m, x, y, h => by
    exfalso
    obtain ⟨t, ht⟩ := hb b
    cases m with
    | nil => simp [ht] at h; exact hc h.1
    | cons b' m => rw [List.map_cons, List.map_cons, List.intercalate_cons_cons, ht] at h; simp at h; exact hc h.1
  | a :: l, [], x, y, h => by
    exfalso
    obtain ⟨t, ht⟩ := hb a
    cases l with
    | nil => simp [ht] at h; exact hc h.1.symm
    | cons a' l =>
      rw [List.map_cons, List.map_cons, List.intercalate_cons_cons, ht] at h; simp at h; exact hc h.1.symm
  | [a], [b], x, y, h => by
    simp only [List.map_cons, List.map_nil, List.intercalate_singleton] at h
    obtain ⟨h1, h2⟩ := hs _ _ _ _ h
    exact ⟨by simp [h1], by simpa using h2⟩
  | [a], b :: b' :: m, x, y, h => by
    exfalso
    simp only [List.map_cons, List.map_nil, List.intercalate_singleton, List.intercalate_cons_cons,
      List.append_assoc] at h
    obtain ⟨_, h2⟩ := hs _ _ _ _ h
    simp at h2
    exact hc' h2.1
  | a :: a' :: l, [b], x, y, h => by
    exfalso
    simp only [List.map_cons, List.map_nil, List.intercalate_singleton, List.intercalate_cons_cons,
      List.append_assoc] at h
    obtain ⟨_, h2⟩ := hs _ _ _ _ h
    simp at h2
    exact hc' h2.1.symm
  | a :: a' :: l, b :: b' :: m, x, y, h => by
    rw [List.map_cons, List.map_cons, List.intercalate_cons_cons, List.map_cons, List.map_cons,
      List.intercalate_cons_cons] at h
    simp only [List.append_assoc] at h
    obtain ⟨h1, h2⟩ := hs _ _ _ _ h
    have h3 := List.append_cancel_left h2
    obtain ⟨h4, h5⟩ := items_split hc hc' hb hs (l := a' :: l) (m := b' :: m)
      (by simpa only [List.map_cons, List.append_assoc] using h3)
    exact ⟨by rw [List.map_cons, h4, h1]; rfl, h5⟩

/-! ### Tokens -/

/-- A token without its extras. -/
def Token.plain (t : Token) : Token := { t with extras := Dict.empty }

theorem tokenRepr_split {reprStr : Str → Str} (hq : Quoting reprStr) (a b : Token) (x y : Str)
    (h : a.repr reprStr ++ x = b.repr reprStr ++ y) : a.plain = b.plain ∧ x = y := by
  have hend : ∀ (p p' : Option Pos) (l l' d d' : Option Str) (i i' j j' : Option Int),
      reprPos reprStr p ++ (", 'lemma': ".toList ++ (reprOpt reprStr l ++ (", 'head_doc': ".toList ++ (reprIdx i ++
        (", 'head_sent': ".toList ++ (reprIdx j ++ (", 'deprel': ".toList ++ (reprOpt reprStr d ++
        ("}".toList ++ x))))))))) =
      reprPos reprStr p' ++ (", 'lemma': ".toList ++ (reprOpt reprStr l' ++ (", 'head_doc': ".toList ++ (reprIdx i' ++
        (", 'head_sent': ".toList ++ (reprIdx j' ++ (", 'deprel': ".toList ++ (reprOpt reprStr d' ++
        ("}".toList ++ y))))))))) →
      p = p' ∧ l = l' ∧ d = d' ∧ i = i' ∧ j = j' ∧ x = y := by
    intro p p' l l' d d' i i' j j' h
    obtain ⟨h1, h⟩ := reprPos_split hq h
    obtain ⟨h2, h⟩ := reprOpt_split hq (List.append_cancel_left h)
    obtain ⟨h3, h⟩ := reprIdx_split (by decide) (by decide) (List.append_cancel_left h)
    obtain ⟨h4, h⟩ := reprIdx_split (by decide) (by decide)
      (List.append_cancel_left (as := ", 'head_sent': ".toList) h)
    obtain ⟨h5, h⟩ := reprOpt_split hq (List.append_cancel_left (as := ", 'deprel': ".toList) h)
    exact ⟨h1, h2, h5, h3, h4, List.append_cancel_left h⟩
  unfold Token.repr at h
  rcases a with ⟨s, e, p, l, d, k, r, i, j, ex, hlt, hmw⟩
  rcases b with ⟨s', e', p', l', d', k', r', i', j', ex', hlt', hmw'⟩
  cases r with
  | none =>
    cases r' with
    | none =>
      simp only [List.append_assoc] at h
      obtain ⟨h1, h⟩ := natStr_split (by decide) (by decide) (List.append_cancel_left h)
      obtain ⟨h2, h⟩ := natStr_split (by decide) (by decide) (List.append_cancel_left (as := ", 'end': ".toList) h)
      obtain ⟨h3, h4, h5, h6, h7, h8⟩ := hend _ _ _ _ _ _ _ _ _ _
        (List.append_cancel_left (as := ", 'pos': ".toList) h)
      have e1 : k = 0 := hmw rfl
      have e2 : k' = 0 := hmw' rfl
      subst h1 h2 h3 h4 h5 h6 h7 e1 e2
      exact ⟨rfl, h8⟩
    | some r' =>
      exfalso
      simp only [List.append_assoc] at h
      obtain ⟨h1, h⟩ := natStr_split (by decide) (by decide) (List.append_cancel_left h)
      obtain ⟨h2, h⟩ := natStr_split (by decide) (by decide) (List.append_cancel_left (as := ", 'end': ".toList) h)
      simp at h
  | some r =>
    cases r' with
    | none =>
      exfalso
      simp only [List.append_assoc] at h
      obtain ⟨h1, h⟩ := natStr_split (by decide) (by decide) (List.append_cancel_left h)
      obtain ⟨h2, h⟩ := natStr_split (by decide) (by decide) (List.append_cancel_left (as := ", 'end': ".toList) h)
      simp at h
    | some r' =>
      simp only [List.append_assoc] at h
      obtain ⟨h1, h⟩ := natStr_split (by decide) (by decide) (List.append_cancel_left h)
      obtain ⟨h2, h⟩ := natStr_split (by decide) (by decide) (List.append_cancel_left (as := ", 'end': ".toList) h)
      obtain ⟨h9, h⟩ := intStr_split (by decide) (by decide) (List.append_cancel_left (as := ", 'sub_index': ".toList) h)
      obtain ⟨h10, h⟩ := hq.split (List.append_cancel_left (as := ", 'text': ".toList) h)
      obtain ⟨h3, h4, h5, h6, h7, h8⟩ := hend _ _ _ _ _ _ _ _ _ _
        (List.append_cancel_left (as := " 'pos': ".toList) h)
      subst h1 h2 h3 h4 h5 h6 h7 h9 h10
      exact ⟨rfl, h8⟩

theorem sentenceRepr_split (a b : Sentence) (x y : Str) (h : a.repr ++ x = b.repr ++ y) : a = b ∧ x = y := by
  unfold Sentence.repr at h
  rcases a with ⟨s, e, hlt⟩
  rcases b with ⟨s', e', hlt'⟩
  simp only [List.append_assoc] at h
  obtain ⟨h1, h⟩ := natStr_split (by decide) (by decide) (List.append_cancel_left h)
  obtain ⟨h2, h⟩ := natStr_split (by decide) (by decide)
    (List.append_cancel_left (as := ", 'end_token': ".toList) h)
  subst h1 h2
  exact ⟨rfl, by simpa using h⟩

theorem sentencesRepr_inj (l m : List Sentence) (h : reprTuple (l.map Sentence.repr) = reprTuple (m.map Sentence.repr)) :
    l = m := by
  have key : ∀ (a a' : Sentence) (l : List Sentence), reprTuple ((a :: a' :: l).map Sentence.repr) =
      '(' :: (List.intercalate ", ".toList ((a :: a' :: l).map Sentence.repr) ++ ')' :: []) := fun _ _ _ => rfl
  rcases l with _ | ⟨a, _ | ⟨a', l⟩⟩ <;> rcases m with _ | ⟨b, _ | ⟨b', m⟩⟩
  · rfl
  · simp [reprTuple] at h
  · rw [key] at h; simp [reprTuple] at h
  · simp [reprTuple] at h
  · simp only [reprTuple, List.map_cons, List.map_nil, List.cons.injEq, true_and] at h
    rw [(sentenceRepr_split _ _ _ _ h).1]
  · rw [key] at h
    simp only [reprTuple, List.map_cons, List.map_nil, List.cons.injEq, true_and, List.intercalate_cons_cons,
      List.append_assoc] at h
    have := (sentenceRepr_split _ _ _ _ h).2
    simp at this
  · rw [key] at h; simp [reprTuple] at h
  · rw [key] at h
    simp only [reprTuple, List.map_cons, List.map_nil, List.cons.injEq, true_and, List.intercalate_cons_cons,
      List.append_assoc] at h
    have := (sentenceRepr_split _ _ _ _ h).2
    simp at this
  · rw [key, key] at h
    simp only [List.cons.injEq, true_and] at h
    have := (items_split (g := id) (c := ')') (by decide) (by decide) sentence_brace sentenceRepr_split h).1
    simpa only [List.map_id] using this

/-! ### C151 -/

/-- C151: the representation of a token tells everything about it except its extras: tokens with the same
representation agree in their span, part of speech, lemma, relation, heads and words. -/
theorem C151_token_partial (reprStr : Str → Str) (hq : Quoting reprStr) (a b : Token)
    (h : a.repr reprStr = b.repr reprStr) :
    a.start = b.start ∧ a.stop = b.stop ∧ a.pos = b.pos ∧ a.lemma' = b.lemma' ∧ a.deprel = b.deprel ∧
    a.sub = b.sub ∧ a.repl = b.repl ∧ a.headDoc = b.headDoc ∧ a.headSent = b.headSent := by
  have := (tokenRepr_split hq a b [] [] (by simpa using h)).1
  unfold Token.plain at this
  simp only [Token.mk.injEq] at this
  tauto

/-- C151: the representation of a document tells everything about it except the extras of its tokens. -/
theorem C151_document_partial (reprStr : Str → Str) (hq : Quoting reprStr) (d e : Document)
    (h : d.repr reprStr = e.repr reprStr) :
    d.text = e.text ∧ d.sentences = e.sentences ∧
    (d.tokens.map Token.extras = e.tokens.map Token.extras → d = e) ∧
    d.tokens.length = e.tokens.length ∧
    ∀ (i : Nat) (a b : Token), d.tokens[i]? = some a → e.tokens[i]? = some b →
      a.start = b.start ∧ a.stop = b.stop ∧ a.pos = b.pos ∧ a.lemma' = b.lemma' ∧ a.deprel = b.deprel ∧
      a.sub = b.sub ∧ a.repl = b.repl ∧ a.headDoc = b.headDoc ∧ a.headSent = b.headSent := by
  unfold Document.repr at h
  simp only [List.append_assoc] at h
  obtain ⟨h1, h⟩ := hq.split (List.append_cancel_left h)
  have h := List.append_cancel_left h
  unfold reprList at h
  simp only [List.cons_append, List.append_assoc, List.cons.injEq, true_and] at h
  obtain ⟨h2, h⟩ := items_split (g := Token.plain) (c := ']') (by decide) (by decide)
    (token_brace reprStr) (tokenRepr_split hq) h
  have h3 := sentencesRepr_inj _ _ (List.append_cancel_left h)
  have hlen : d.tokens.length = e.tokens.length := by
    have := congrArg List.length h2
    simpa using this
  have hi : ∀ (i : Nat) (a b : Token), d.tokens[i]? = some a → e.tokens[i]? = some b → a.plain = b.plain := by
    intro i a b ha hb
    have := congrArg (fun l => l[i]?) h2
    simp only [List.getElem?_map, ha, hb, Option.map_some, Option.some.injEq] at this
    exact this
  refine ⟨h1, h3, ?_, hlen, ?_⟩
  · intro hx
    rcases d with ⟨dt, dk, ds⟩
    rcases e with ⟨et, ek, es⟩
    simp only at h1 h3 hx hlen hi
    subst h1 h3
    congr
    refine List.ext_getElem? fun i => ?_
    by_cases hd : i < dk.length
    · have he : i < ek.length := hlen ▸ hd
      have ha := List.getElem?_eq_getElem hd
      have hb := List.getElem?_eq_getElem he
      have hp := hi i _ _ ha hb
      have hxi := congrArg (fun l => l[i]?) hx
      simp only [List.getElem?_map, ha, hb, Option.map_some, Option.some.injEq] at hxi
      rw [ha, hb]
      congr 1
      generalize dk[i] = a at hp hxi
      generalize ek[i] = b at hp hxi
      rcases a with ⟨⟩
      rcases b with ⟨⟩
      unfold Token.plain at hp
      simp only [Token.mk.injEq] at hp hxi ⊢
      tauto
    · rw [List.getElem?_eq_none (by omega), List.getElem?_eq_none (by omega)]
  · intro i a b ha hb
    have := hi i a b ha hb
    unfold Token.plain at this
    simp only [Token.mk.injEq] at this
    tauto

namespace Demo

/-- "Ja." with extras `v` at the only token. -/
def jaExtra (v : Nat) : Document :=
  ⟨"Ja".toList, [{ start := 0, stop := 2, extras := Dict.ofList [("k".toList, v)] }], [⟨0, 1, by decide⟩]⟩

theorem jaExtra_built (v : Nat) : Built (jaExtra v) :=
  ⟨(jaExtra v).text, (jaExtra v).tokens, none, false, rfl⟩

/-- "Ja" with features in one of two orders. -/
def jaFeats (l : List (Str × Str)) : Document :=
  ⟨"Ja".toList, [{ start := 0, stop := 2, pos := some ⟨none, none, Dict.ofList l⟩ }], [⟨0, 1, by decide⟩]⟩

/-- A document with a multiword token, two sentences and heads, and its representation. -/
def zumHaus : Document :=
  ⟨"zum Ja".toList,
   [{ start := 0, stop := 3, sub := 0, repl := some "zu".toList, headDoc := some (-1), headSent := some (-1) },
    { start := 0, stop := 3, sub := 1, repl := some "dem".toList, headDoc := some 0, headSent := some 0 },
    { start := 4, stop := 6, lemma' := some "ja".toList }],
   [⟨0, 2, by decide⟩, ⟨2, 3, by decide⟩]⟩

example : zumHaus.repr (fun s => '\'' :: quoteBody s) =
    ("{'text':'zum Ja', 'tokens':[" ++
      "{'start': 0, 'end': 3, 'sub_index': 0, 'text': 'zu' 'pos': None, 'lemma': None, 'head_doc': -1, 'head_sent': -1, 'deprel': None}, " ++
      "{'start': 0, 'end': 3, 'sub_index': 1, 'text': 'dem' 'pos': None, 'lemma': None, 'head_doc': 0, 'head_sent': 0, 'deprel': None}, " ++
      "{'start': 4, 'end': 6, 'pos': None, 'lemma': 'ja', 'head_doc': None, 'head_sent': None, 'deprel': None}], " ++
      "'sentences':({'start_token': 0, 'end_token': 2}, {'start_token': 2, 'end_token': 3})").toList := by
  decide +kernel

end Demo

/-- C151, the full claim is false: documents that are not equal can have the same representation, because
extras are not shown. -/
theorem C151_extras_refuted (reprStr : Str → Str) : ∃ d e : Document, Built d ∧ Built e ∧
    d.pyEq e = false ∧ d.repr reprStr = e.repr reprStr :=
  ⟨Demo.jaExtra 1, Demo.jaExtra 2, Demo.jaExtra_built 1, Demo.jaExtra_built 2, by decide +kernel, rfl⟩

/-- C151, the converse is false as well: documents that are equal can have different representations, because
the order of the features is shown. -/
theorem C151_order_refuted (reprStr : Str → Str) (hq : Quoting reprStr) : ∃ d e : Document, Built d ∧ Built e ∧
    d.pyEq e = true ∧ d.repr reprStr ≠ e.repr reprStr := by
  refine ⟨Demo.jaFeats [(['a'], ['b']), (['c'], ['d'])], Demo.jaFeats [(['c'], ['d']), (['a'], ['b'])],
    ⟨(Demo.jaFeats [(['a'], ['b']), (['c'], ['d'])]).text, (Demo.jaFeats [(['a'], ['b']), (['c'], ['d'])]).tokens,
      none, false, by decide +kernel⟩,
    ⟨(Demo.jaFeats [(['c'], ['d']), (['a'], ['b'])]).text, (Demo.jaFeats [(['c'], ['d']), (['a'], ['b'])]).tokens,
      none, false, by decide +kernel⟩, by decide +kernel, ?_⟩
  intro h
  have := (C151_document_partial reprStr hq _ _ h).2.2.1 (by decide +kernel)
  exact absurd this (by decide +kernel)

/-- C151: the representation of a lemma rule determines it. -/
theorem C151_rule (reprStr : Str → Str) (hq : Quoting reprStr) (r s : LemmaRule)
    (h : r.repr reprStr = s.repr reprStr) : r = s := by
  unfold LemmaRule.repr at h
  simp only [List.append_assoc] at h
  obtain ⟨h1, h⟩ := hq.split (List.append_cancel_left h)
  obtain ⟨h2, h⟩ := hq.split (List.append_cancel_left h)
  have h := List.append_cancel_left h
  rcases r with ⟨a, b, c⟩
  rcases s with ⟨a', b', c'⟩
  simp only at h1 h2 h
  subst h1 h2
  cases c <;> cases c' <;> first | rfl | (simp [reprBool] at h)

/-- C151: what is printed for a lemma rule does not: different rules, doing different things, are printed
alike. -/
theorem C151_rule_printed_refuted : ∃ r s : LemmaRule, r.str = s.str ∧
    ∃ word l m, r.transform word = .ok l ∧ s.transform word = .ok m ∧ l ≠ m :=
  ⟨⟨"x".toList, "x -> ~c".toList, false⟩, ⟨"x -> ~x".toList, "c".toList, false⟩, by decide +kernel,
    "x -> ~x".toList, "x -> ~x -> ~c".toList, "c".toList, by decide +kernel, by decide +kernel, by decide⟩

end Verif
