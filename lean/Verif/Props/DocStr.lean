import Verif.Spec.DocStr
import Verif.Proofs.Built

/-!
# Properties of printed documents (C107)
-/

namespace Verif

/-! ### Auxiliary lemmas -/

theorem slice_backwards {α : Type} (l : List α) {a b : Nat} (h : b ≤ a) : slice l a b = [] := by
  unfold slice; rw [Nat.sub_eq_zero_of_le h]; simp

/-- One token, with the token at hand. -/
def tokStep (reprStr : Str → Str) (text : Str) (st : Str × Nat) (t : Token) : Str × Nat :=
  (st.1 ++ slice text st.2 t.start ++ ('[' :: slice text t.start t.stop) ++ annotation reprStr t ++ [']'],
    t.stop)

theorem strToken_eq {reprStr : Str → Str} {d : Document} {st : Str × Nat} {i : Nat} {t : Token}
    (h : d.tokens[i]? = some t) : strToken reprStr d st i = .ok (tokStep reprStr d.text st t) := by
  unfold strToken
  rw [pyGet_nat_ok.mpr h]
  unfold tokStep annotation
  rcases hp : t.pos with _ | p <;> rcases hl : t.lemma' with _ | l <;>
    simp [hp, hl, List.append_assoc]

theorem strTokens_eq {reprStr : Str → Str} {d : Document} (n : Nat) : ∀ (k : Nat) (st : Str × Nat),
    k + n ≤ d.tokens.length →
    forM' (strToken reprStr d) st (List.range' k n) =
      .ok ((slice d.tokens k (k + n)).foldl (tokStep reprStr d.text) st) := by
  induction n with
  | zero => intro k st _; simp [forM', slice]
  | succ n ih =>
    intro k st h
    have hk : k < d.tokens.length := by omega
    rw [List.range'_succ, forM', strToken_eq (List.getElem?_eq_getElem hk)]
    simp only
    rw [ih (k + 1) _ (by omega)]
    have : slice d.tokens k (k + (n + 1)) =
        d.tokens[k] :: slice d.tokens (k + 1) (k + 1 + n) := by
      unfold slice
      rw [List.drop_eq_getElem_cons hk]
      have e1 : k + (n + 1) - k = n + 1 := by omega
      have e2 : k + 1 + n - (k + 1) = n := by omega
      rw [e1, e2, List.take_succ_cons]
    rw [this, List.foldl_cons]

theorem tokensPrinted_of_fold {reprStr : Str → Str} {text : Str} (ts : List Token) :
    ∀ (res : Str) (p a : Nat), ts.Pairwise Before →
    (∀ t, ts.head? = some t → (p = a ∧ a ≤ t.start) ∨ (t.stop = a ∧ t.start ≤ p)) →
    ∃ ps b, TokensPrinted reprStr text a ts ps b ∧
      (ts.foldl (tokStep reprStr text) (res, p)).1 = res ++ ps.flatMap Piece.str ∧
      (ts ≠ [] → (ts.foldl (tokStep reprStr text) (res, p)).2 = b ∧
        ∃ t, ts.getLast? = some t ∧ t.stop = b) := by
  induction ts with
  | nil => intro res p a _ _; exact ⟨[], a, .nil a, by simp, by simp⟩
  | cons t ts ih =>
    intro res p a hp hh
    obtain ⟨hp1, hp2⟩ := List.pairwise_cons.mp hp
    obtain ⟨ps, b, h1, h2, h3⟩ := ih (tokStep reprStr text (res, p) t).1 t.stop t.stop hp2 (by
      intro u hu
      have hm : u ∈ ts := List.mem_of_head? hu
      rcases hp1 u hm with h | ⟨e1, e2, _⟩
      · exact .inl ⟨rfl, h⟩
      · right; refine ⟨e2.symm, ?_⟩
        have := t.lt; omega)
    have hlast : ∃ u, (t :: ts).getLast? = some u ∧ u.stop = b := by
      by_cases hts : ts = []
      · subst hts
        cases h1
        exact ⟨t, by simp, rfl⟩
      · obtain ⟨_, u, hu, hub⟩ := h3 hts
        exact ⟨u, by rw [List.getLast?_cons, hu]; simp, hub⟩
    have hsnd : ((t :: ts).foldl (tokStep reprStr text) (res, p)).2 = b := by
      rw [List.foldl_cons]
      by_cases hts : ts = []
      · subst hts; cases h1; rfl
      · exact (h3 hts).1
    have hfst : ((t :: ts).foldl (tokStep reprStr text) (res, p)).1 =
        res ++ slice text p t.start ++ ('[' :: slice text t.start t.stop) ++ annotation reprStr t ++ [']'] ++
          ps.flatMap Piece.str := by
      rw [List.foldl_cons]; exact h2
    rcases hh t (by simp) with ⟨rfl, hle⟩ | ⟨rfl, hle⟩
    · refine ⟨_, b, .cons hle h1, ?_, fun _ => ⟨hsnd, hlast⟩⟩
      rw [hfst]; simp [Piece.str, List.append_assoc]
    · refine ⟨_, b, .again rfl h1, ?_, fun _ => ⟨hsnd, hlast⟩⟩
      rw [hfst, slice_backwards _ hle]; simp [Piece.str, List.append_assoc]

theorem TokensPrinted.kept {reprStr : Str → Str} {text : Str} {a b : Nat} {ts : List Token}
    {ps : List Piece} (h : TokensPrinted reprStr text a ts ps b) :
    a ≤ b ∧ ps.flatMap Piece.text = slice text a b := by
  induction h with
  | nil a => exact ⟨le_refl _, by simp [slice]⟩
  | @cons a b t ts ps hle _ ih =>
    have := t.lt
    refine ⟨by omega, ?_⟩
    simp only [List.flatMap_cons, Piece.text, List.nil_append, ih.2]
    rw [slice_append_slice _ (by omega) ih.1, slice_append_slice _ hle (by omega)]
  | @again a b t ts ps he _ ih =>
    refine ⟨ih.1, ?_⟩
    simp only [List.flatMap_cons, Piece.text, List.nil_append, ih.2]

theorem SentencesPrinted.kept {reprStr : Str → Str} {text : Str} {a b : Nat} {ss : List (List Token)}
    {ps : List Piece} (h : SentencesPrinted reprStr text a ss ps b) :
    a ≤ b ∧ ps.flatMap Piece.text = slice text a b := by
  induction h with
  | nil a => exact ⟨le_refl _, by simp [slice]⟩
  | @cons a b c t ts ss ps qs h1 _ ih =>
    obtain ⟨k1, k2⟩ := h1.kept
    have hm : a ≤ max a t.start := le_max_left _ _
    refine ⟨by omega, ?_⟩
    simp only [List.flatMap_cons, List.flatMap_append, List.cons_append, Piece.text, List.nil_append,
      ih.2, k2]
    rw [slice_append_slice _ k1 ih.1, slice_append_slice _ hm (by omega)]

theorem sentencesPrinted_of_loop {reprStr : Str → Str} {d : Document} (hd : DocOk d)
    (ss : List Sentence) : ∀ (k a : Nat) (res : Str), Tiles k ss d.tokens.length →
    (∀ t, d.tokens[k]? = some t → a ≤ t.start ∨ t.stop = a) →
    (0 < k → ∃ t, d.tokens[k - 1]? = some t ∧ t.stop = a) →
    ∃ ps b res', SentencesPrinted reprStr d.text a (ss.map d.sentenceTokens) ps b ∧
      forM' (strSentence reprStr d) (res, a) ss = .ok (res', b) ∧
      res' = res ++ ps.flatMap Piece.str ∧
      ((0 < k ∨ ss ≠ []) → ∃ t, d.tokens.getLast? = some t ∧ t.stop = b) := by
  induction ss with
  | nil =>
    intro k a res ht h1 h2
    refine ⟨[], a, res, .nil a, rfl, by simp, ?_⟩
    have hk : k = d.tokens.length := ht
    rintro (h | h)
    · obtain ⟨t, e, e2⟩ := h2 h
      exact ⟨t, by rw [List.getLast?_eq_getElem?, ← hk]; exact e, e2⟩
    · exact absurd rfl h
  | cons s ss ih =>
    intro k a res ht h1 h2
    obtain ⟨hs, ht'⟩ := ht
    have hle := ht'.le
    have hlt := s.lt
    have hk : s.start < d.tokens.length := by omega
    obtain ⟨t, htk⟩ : ∃ t, d.tokens[s.start]? = some t := ⟨_, List.getElem?_eq_getElem hk⟩
    have hst : d.sentenceTokens s = slice d.tokens s.start s.stop := rfl
    have hst2 : ∃ ts, d.sentenceTokens s = t :: ts := by
      unfold Document.sentenceTokens
      rw [List.drop_eq_getElem_cons hk]
      obtain ⟨m, hm⟩ : ∃ m, s.stop - s.start = m + 1 := ⟨s.stop - s.start - 1, by omega⟩
      rw [hm, List.take_succ_cons]
      rw [List.getElem?_eq_getElem hk] at htk
      exact ⟨_, by rw [Option.some.inj htk]⟩
    obtain ⟨ts, hts⟩ := hst2
    have hcond := h1 t (by rw [← hs]; exact htk)
    have hpair : (t :: ts).Pairwise Before := by
      rw [← hts]
      exact hd.order.sublist ((List.take_sublist _ _).trans (List.drop_sublist _ _))
    obtain ⟨ps, b, q1, q2, q3⟩ := tokensPrinted_of_fold (reprStr := reprStr) (text := d.text) (t :: ts)
      (res ++ slice d.text a t.start ++ ['[']) t.start (max a t.start) hpair (by
        intro u hu
        have : t = u := by simpa using hu
        subst this
        rcases hcond with h | h
        · left; rw [max_eq_right h]; exact ⟨rfl, le_refl _⟩
        · right
          have := t.lt
          rw [max_eq_left (by omega)]
          exact ⟨h, le_refl _⟩)
    obtain ⟨q4, u, hu, hub⟩ := q3 (by simp)
    have hlastU : d.tokens[s.stop - 1]? = some u := by
      rw [← hts, List.getLast?_eq_getElem?] at hu
      unfold Document.sentenceTokens at hu
      rw [List.length_take, List.length_drop, List.getElem?_take, List.getElem?_drop] at hu
      have e : min (s.stop - s.start) (d.tokens.length - s.start) = s.stop - s.start := by omega
      rw [e, if_pos (by omega)] at hu
      rw [← hu]; congr 1; omega
    obtain ⟨qs, c, res', r1, r2, r3, r4⟩ := ih s.stop b
      ((res ++ slice d.text a t.start ++ ['[']) ++ ps.flatMap Piece.str ++ [']']) ht' (by
        intro v hv
        have hB : Before u v := by
          have hlen : s.stop < d.tokens.length := by
            by_contra hc
            rw [List.getElem?_eq_none (by omega)] at hv; cases hv
          have h1' : s.stop - 1 < d.tokens.length := by omega
          have := List.pairwise_iff_getElem.mp hd.order (s.stop - 1) s.stop h1' hlen (by omega)
          rw [List.getElem?_eq_getElem h1'] at hlastU
          rw [List.getElem?_eq_getElem hlen] at hv
          rw [Option.some.inj hlastU, Option.some.inj hv] at this
          exact this
        rcases hB with h | ⟨_, h, _⟩
        · left; omega
        · right; omega) (fun _ => ⟨u, hlastU, hub⟩)
    refine ⟨.kept (slice d.text a (max a t.start)) :: .added ['['] :: ps ++ .added [']'] :: qs, c, res',
      ?_, ?_, ?_, fun _ => r4 (.inl (by omega))⟩
    · rw [List.map_cons, hts]; exact .cons q1 r1
    · have hstep : strSentence reprStr d (res, a) s =
          .ok ((res ++ slice d.text a t.start ++ ['[']) ++ ps.flatMap Piece.str ++ [']'], b) := by
        unfold strSentence
        rw [pyGet_nat_ok.mpr htk]
        simp only
        rw [strTokens_eq _ _ _ (by omega)]
        have e : s.start + (s.stop - s.start) = s.stop := by omega
        rw [e, ← hst, hts]
        simp only
        rw [q2, q4]
      rw [forM', hstep]
      exact r2
    · rw [r3]
      have hsl : slice d.text a (max a t.start) = slice d.text a t.start := by
        rcases hcond with h | h
        · rw [max_eq_right h]
        · have := t.lt
          rw [max_eq_left (by omega), slice_backwards _ (le_refl a), slice_backwards _ (by omega)]
      rw [hsl]
      simp [Piece.str, List.append_assoc]

/-! ### C107 -/

/-- C107: printing a document that has tokens succeeds.  The result is the document text, all of it
and in order, with insertions: brackets around every sentence, and around every token together with
its part of speech and lemma; the further words of a multiword token repeat its text. -/
theorem C107_printed (reprStr : Str → Str) {d : Document} (h : Built d) (hne : d.tokens ≠ []) :
    ∃ first last s ps, d.tokens.head? = some first ∧ d.tokens.getLast? = some last ∧
      d.str reprStr = .ok s ∧
      s = d.text.take first.start ++ ps.flatMap Piece.str ++ d.text.drop last.stop ∧
      SentencesPrinted reprStr d.text first.start (d.sentences.map d.sentenceTokens) ps last.stop ∧
      d.text.take first.start ++ ps.flatMap Piece.text ++ d.text.drop last.stop = d.text := by
  have hd := h.docOk
  have hpos : 0 < d.tokens.length := List.length_pos_of_ne_nil hne
  obtain ⟨first, hf⟩ : ∃ t, d.tokens[0]? = some t := ⟨_, List.getElem?_eq_getElem hpos⟩
  obtain ⟨ps, b, res', h1, h2, h3, h4⟩ := sentencesPrinted_of_loop (reprStr := reprStr) hd d.sentences
    0 first.start (slice d.text 0 first.start) hd.tiles
    (fun t ht => .inl (by rw [hf] at ht; rw [Option.some.inj ht])) (fun h => absurd h (lt_irrefl 0))
  have hss : d.sentences ≠ [] := by
    intro hc
    have := hd.tiles
    rw [hc] at this
    have h0 : 0 = d.tokens.length := this
    omega
  obtain ⟨last, hl, hlb⟩ := h4 (.inr hss)
  have hk := h1.kept
  subst hlb
  refine ⟨first, last, res' ++ d.text.drop last.stop, ps, by rw [List.head?_eq_getElem?]; exact hf, hl, ?_, ?_, h1, ?_⟩
  · unfold Document.str
    have e0 : pyGet d.tokens 0 = .ok first := pyGet_nat_ok.mpr hf
    have e1 : pyGet d.tokens (-1) = .ok last := by
      unfold pyGet
      have : ((-1 : Int) + d.tokens.length).toNat = d.tokens.length - 1 := by omega
      simp only [show (-1 : Int) < 0 from by decide, if_true, this]
      rw [if_neg (by omega), ← List.getLast?_eq_getElem?, hl]
    rw [e0]
    simp only
    rw [h2]
    simp only
    rw [e1]
  · rw [h3]; simp [slice]
  · rw [hk.2]
    have : d.text.drop last.stop = slice d.text last.stop (max last.stop d.text.length) := by
      unfold slice
      rw [List.take_of_length_le (by rw [List.length_drop]; omega)]
    have e0 : d.text.take first.start = slice d.text 0 first.start := by simp [slice]
    rw [this, e0, slice_append_slice _ (Nat.zero_le _) hk.1,
      slice_append_slice _ (Nat.zero_le _) (le_max_left _ _)]
    unfold slice
    simp only [Nat.sub_zero, List.drop_zero]
    exact List.take_of_length_le (le_max_right _ _)

namespace Demo

/-- "Ja. Oh so": two sentences, the first word with a lemma. -/
def jaOh : Document :=
  ⟨" Ja. Oh so".toList,
   [{ start := 1, stop := 3, lemma' := some "ja".toList }, { start := 3, stop := 4 },
    { start := 5, stop := 7 }, { start := 8, stop := 10 }],
   [⟨0, 2, by decide⟩, ⟨2, 4, by decide⟩]⟩

theorem jaOh_built : Document.new jaOh.text jaOh.tokens (some jaOh.sentences) false = .ok jaOh := by
  decide +kernel

/-- A document meeting the hypotheses of `C107_printed`, and what it prints. -/
example : Built jaOh ∧ jaOh.tokens ≠ [] ∧
    jaOh.str id = .ok " [[Ja|'lemma':'ja'][.]] [[Oh] [so]]".toList :=
  ⟨⟨_, _, _, _, jaOh_built⟩, by decide, by decide +kernel⟩

end Demo

/-- C107: printing a document without tokens raises `IndexError`. -/
theorem C107_without_tokens (reprStr : Str → Str) {d : Document} (h : d.tokens = []) :
    d.str reprStr = .error .index := by
  unfold Document.str
  rw [h]; rfl

namespace Demo

/-- The text "zum" with one multiword token of the words `zu` and `r2`. -/
def zuTokens (r2 : Str) : List Token :=
  [{ start := 0, stop := 3, sub := 0, repl := some "zu".toList },
   { start := 0, stop := 3, sub := 1, repl := some r2 }]

def zum : Document := ⟨"zum".toList, zuTokens "m".toList, [⟨0, 2, by decide⟩]⟩
def zom : Document := ⟨"zum".toList, zuTokens "dem".toList, [⟨0, 2, by decide⟩]⟩

theorem zum_built : Document.new "zum".toList (zuTokens "m".toList) none false = .ok zum := by
  decide +kernel
theorem zom_built : Document.new "zum".toList (zuTokens "dem".toList) none false = .ok zom := by
  decide +kernel

end Demo

/-- C107: the forms of the words of a multiword token are not printed: documents that differ in them
alone print alike. -/
theorem C107_forms_hidden (reprStr : Str → Str) : ∃ d e : Document, Built d ∧ Built e ∧
    d.text = e.text ∧ d.tokens.map Token.repl ≠ e.tokens.map Token.repl ∧
    d.str reprStr = e.str reprStr ∧ d.str reprStr = .ok "[[zum][zum]]".toList := by
  have b1 : Built Demo.zum := ⟨_, _, none, false, Demo.zum_built⟩
  have b2 : Built Demo.zom := ⟨_, _, none, false, Demo.zom_built⟩
  exact ⟨Demo.zum, Demo.zom, b1, b2, rfl, by decide, rfl, rfl⟩

/-! ### Tags -/

theorem Quoting.split {reprStr : Str → Str} (hq : Quoting reprStr) {a b x y : Str}
    (h : reprStr a ++ x = reprStr b ++ y) : a = b ∧ x = y := by
  have := hq.delimits a b x y h
  subst this
  exact ⟨rfl, List.append_cancel_left h⟩

theorem reprOpt_split {reprStr : Str → Str} (hq : Quoting reprStr) {a b : Option Str} {x y : Str}
    (h : reprOpt reprStr a ++ x = reprOpt reprStr b ++ y) : a = b ∧ x = y := by
  have hn : ∀ (s : Str) (x y : Str), reprStr s ++ x ≠ "None".toList ++ y := by
    intro s x y h
    obtain ⟨c, t, hc, hcc⟩ := hq.starts s
    rw [hc] at h
    simp at h
    rcases hcc with rfl | rfl <;> simp at h
  cases a with
  | none =>
    cases b with
    | none => exact ⟨rfl, List.append_cancel_left h⟩
    | some t => exact absurd h.symm (hn t y x)
  | some s =>
    cases b with
    | none => exact absurd h (hn s x y)
    | some t =>
      obtain ⟨rfl, rfl⟩ := hq.split h
      exact ⟨rfl, rfl⟩

theorem reprItems_split {reprStr : Str → Str} (hq : Quoting reprStr) {l m : List (Str × Str)} {x y : Str}
    (h : List.intercalate ", ".toList (l.map (fun p => reprStr p.1 ++ ": ".toList ++ reprStr p.2)) ++
        ('}' :: x) =
      List.intercalate ", ".toList (m.map (fun p => reprStr p.1 ++ ": ".toList ++ reprStr p.2)) ++
        ('}' :: y)) : l = m ∧ x = y := by
  have hne : ∀ (p : Str × Str) (z : Str), reprStr p.1 ++ z ≠ '}' :: y ∧ reprStr p.1 ++ z ≠ '}' :: x := by
    intro p z
    obtain ⟨c, t, hc, hcc⟩ := hq.starts p.1
    rw [hc]
    rcases hcc with rfl | rfl <;> simp
  have hcons : ∀ (p : Str × Str) (l : List (Str × Str)) (x : Str), ∃ z,
      List.intercalate ", ".toList ((p :: l).map (fun p => reprStr p.1 ++ ": ".toList ++ reprStr p.2)) ++
        ('}' :: x) = reprStr p.1 ++ z := by
    intro p l x
    cases l with
    | nil =>
      refine ⟨": ".toList ++ (reprStr p.2 ++ '}' :: x), ?_⟩
      simp only [List.map_cons, List.map_nil, List.intercalate_singleton, List.append_assoc]
    | cons q l =>
      refine ⟨": ".toList ++ (reprStr p.2 ++ (", ".toList ++ (List.intercalate ", ".toList
        ((q :: l).map (fun p => reprStr p.1 ++ ": ".toList ++ reprStr p.2)) ++ '}' :: x))), ?_⟩
      simp only [List.map_cons, List.intercalate_cons_cons, List.append_assoc]
  induction l generalizing m with
  | nil =>
    cases m with
    | nil => simpa using h
    | cons q m =>
      exfalso
      obtain ⟨z, hz⟩ := hcons q m y
      rw [hz] at h
      exact (hne q z).2 (by simpa using h.symm)
  | cons p l ih =>
    cases m with
    | nil =>
      exfalso
      obtain ⟨z, hz⟩ := hcons p l x
      rw [hz] at h
      exact (hne p z).1 (by simpa using h)
    | cons q m =>
      have hpq : ∀ z w, reprStr p.1 ++ (": ".toList ++ (reprStr p.2 ++ z)) =
          reprStr q.1 ++ (": ".toList ++ (reprStr q.2 ++ w)) → p = q ∧ z = w := by
        intro z w hzw
        obtain ⟨h1, h2⟩ := hq.split hzw
        obtain ⟨h3, h4⟩ := hq.split (List.append_cancel_left h2)
        exact ⟨Prod.ext h1 h3, h4⟩
      cases l with
      | nil =>
        cases m with
        | nil =>
          simp only [List.map_cons, List.map_nil, List.intercalate_singleton, List.append_assoc] at h
          obtain ⟨rfl, h2⟩ := hpq _ _ h
          exact ⟨rfl, by simpa using h2⟩
        | cons q' m =>
          simp only [List.map_cons, List.map_nil, List.intercalate_singleton,
            List.intercalate_cons_cons, List.append_assoc] at h
          obtain ⟨_, h2⟩ := hpq _ _ h
          simp at h2
      | cons p' l =>
        cases m with
        | nil =>
          simp only [List.map_cons, List.map_nil, List.intercalate_singleton,
            List.intercalate_cons_cons, List.append_assoc] at h
          obtain ⟨_, h2⟩ := hpq _ _ h
          simp at h2
        | cons q' m =>
          rw [List.map_cons, List.map_cons, List.intercalate_cons_cons, List.map_cons, List.map_cons,
            List.intercalate_cons_cons] at h
          simp only [List.append_assoc] at h
          obtain ⟨rfl, h2⟩ := hpq _ _ h
          have h3 := List.append_cancel_left h2
          obtain ⟨h4, h5⟩ := ih (m := q' :: m) (by simpa only [List.map_cons, List.append_assoc] using h3)
          exact ⟨by rw [h4], h5⟩

/-- C107: what is printed for a tag determines it: the universal tag, the language specific tag and
the features with their order. -/
theorem C107_tags (reprStr : Str → Str) (hq : Quoting reprStr) (p q : Pos)
    (h : p.repr reprStr = q.repr reprStr) : p = q := by
  unfold Pos.repr reprDict at h
  simp only [List.append_assoc, List.cons_append] at h
  obtain ⟨h1, h2⟩ := reprOpt_split hq (List.append_cancel_left h)
  obtain ⟨h3, h4⟩ := reprOpt_split hq (List.append_cancel_left h2)
  have h5 := List.append_cancel_left h4
  simp only [List.cons.injEq, true_and] at h5
  obtain ⟨h6, _⟩ := reprItems_split hq (x := "}".toList) (y := "}".toList) (by simpa using h5)
  cases p
  cases q
  simp only at h1 h3 h6
  subst h1 h3
  congr
  exact Dict.ext h6

/-- C107: equal tags may be printed differently: the order of the features shows. -/
theorem C107_order_shown (reprStr : Str → Str) (hq : Quoting reprStr) : ∃ p q : Pos,
    p.pyEq q = true ∧ p.repr reprStr ≠ q.repr reprStr := by
  refine ⟨⟨none, none, Dict.ofList [(['a'], ['b']), (['c'], ['d'])]⟩,
    ⟨none, none, Dict.ofList [(['c'], ['d']), (['a'], ['b'])]⟩, by decide +kernel, ?_⟩
  intro h
  have := C107_tags reprStr hq _ _ h
  exact absurd this (by decide +kernel)

namespace Demo

/-- A quoting function. -/
def quoteBody : Str → Str
  | [] => ['\'']
  | c :: s => if c = '\'' ∨ c = '\\' then '\\' :: c :: quoteBody s else c :: quoteBody s

theorem quoteBody_delimits : ∀ (a b x y : Str), quoteBody a ++ x = quoteBody b ++ y → a = b
  | [], [], _, _, _ => rfl
  | [], d :: b, x, y, h => by
    exfalso
    simp only [quoteBody] at h
    split at h
    · simp at h
    · rename_i hd
      simp at h
      exact hd (Or.inl h.1.symm)
  | c :: a, [], x, y, h => by
    exfalso
    simp only [quoteBody] at h
    split at h
    · simp at h
    · rename_i hd
      simp at h
      exact hd (Or.inl h.1)
  | c :: a, d :: b, x, y, h => by
    simp only [quoteBody] at h
    split at h
    · rename_i hc
      split at h
      · simp only [List.cons_append, List.cons.injEq, true_and] at h
        rw [h.1, quoteBody_delimits a b x y h.2]
      · rename_i hd
        simp only [List.cons_append, List.cons.injEq] at h
        exact absurd (Or.inr h.1.symm) hd
    · rename_i hc
      split at h
      · rename_i hd
        simp only [List.cons_append, List.cons.injEq] at h
        exact absurd (Or.inr h.1) hc
      · simp only [List.cons_append, List.cons.injEq] at h
        rw [h.1, quoteBody_delimits a b x y h.2]

theorem quoting : Quoting (fun s => '\'' :: quoteBody s) where
  starts s := ⟨_, _, rfl, Or.inl rfl⟩
  delimits a b x y h := quoteBody_delimits a b x y (by simpa using h)

end Demo

example : Pos.repr (fun s => '\'' :: Demo.quoteBody s)
    ⟨some "N".toList, none, Dict.ofList [("a".toList, "it's".toList)]⟩ =
    "{'upos': 'N', 'xpos': None 'feats': {'a': 'it\\'s'}}".toList := by decide +kernel

end Verif
