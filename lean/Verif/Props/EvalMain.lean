import Verif.Model.EvalMain
import Verif.Props.UdEval
import Verif.Props.UdLoad
import Verif.Props.Embeddings

/-!
# Properties of the evaluation program: C100, C101
-/

namespace Verif

/-! ### Specification vocabulary -/

/-- The line says nothing: a comment, or only white space. -/
def SaysNothing (line : Str) : Prop := line.head? = some '#' ∨ ∀ c ∈ line, isSpace c = true

/-- The line gives the relation the weight: two fields, the second one a number. -/
def GivesWeight (float : Str → Res Rat) (line r : Str) (w : Rat) : Prop :=
  ¬ SaysNothing line ∧ ∃ x, splitWs line = [r, x] ∧ float x = .ok w

/-- The last line about the relation gives it this weight. -/
def LastWeight (float : Str → Res Rat) (lines : List Str) (r : Str) (w : Rat) : Prop :=
  ∃ pre line post, lines = pre ++ line :: post ∧ GivesWeight float line r w ∧
    ∀ l ∈ post, ∀ w', ¬ GivesWeight float l r w'

/-! ### Lines -/

theorem splitWs_nil_iff (s : Str) : splitWs s = [] ↔ ∀ c ∈ s, isSpace c = true := by
  obtain ⟨h1, h2⟩ := splitWsAux_spec s [] (by simp)
  constructor
  · intro h c hc
    rw [splitWs] at h
    rw [h] at h2
    by_contra hs
    have : c ∈ s.filter (fun c => !isSpace c) := List.mem_filter.2 ⟨hc, by simpa using hs⟩
    have h3 : s.filter (fun c => !isSpace c) = [] := by simpa using h2.symm
    rw [h3] at this
    simp at this
  · intro h
    have h3 : s.filter (fun c => !isSpace c) = [] := by
      rw [List.filter_eq_nil_iff]
      intro c hc
      simp [h c hc]
    rw [h3] at h2
    rw [splitWs]
    cases hp : splitWsAux [] s with
    | nil => rfl
    | cons p ps =>
      rw [hp] at h2
      simp only [List.flatten_cons, List.reverse_nil, List.nil_append, List.append_eq_nil_iff] at h2
      exact absurd h2.1 (h1 p (by rw [hp]; simp)).1

theorem splitWs_strip (a b : Str) (h : ∀ c ∈ b, isSpace c = true) : splitWs (a ++ b) = splitWs a := by
  cases b with
  | nil => simp
  | cons c b =>
    rw [(C70_fields a).2.2 c a b (h c (by simp)),
      (splitWs_nil_iff b).2 (fun x hx => h x (List.mem_cons_of_mem _ hx)), List.append_nil]

theorem rstripEol_split (line : Str) : splitWs (rstripEol line) = splitWs line := by
  have h : line = rstripEol line ++ (line.reverse.takeWhile isEol).reverse := by
    rw [rstripEol, ← List.reverse_append, List.takeWhile_append_dropWhile, List.reverse_reverse]
  conv_rhs => rw [h]
  rw [splitWs_strip]
  intro c hc
  rw [List.mem_reverse] at hc
  have := List.all_eq_true.1 List.all_takeWhile c hc
  simp only [isEol, Bool.or_eq_true, beq_iff_eq] at this
  rcases this with rfl | rfl <;> decide

theorem isBlank_iff (line : Str) : isBlank line = true ↔ ∀ c ∈ line, isSpace c = true := by
  simp [isBlank]

theorem weightStep_nothing {float : Str → Res Rat} {d : Dict Str Rat} {line : Str} (h : SaysNothing line) :
    weightStep float d line = .ok d := by
  rw [weightStep, if_pos]
  rcases h with h | h
  · exact Or.inl h
  · exact Or.inr ((isBlank_iff line).2 h)

theorem weightStep_says {float : Str → Res Rat} {d : Dict Str Rat} {line : Str} (h : ¬ SaysNothing line) :
    weightStep float d line = match splitWs line with
      | [r, x] => match float x with
        | .error e => .error e
        | .ok v => .ok (d.set r v)
      | _ => .error .value := by
  have hn : ¬ (line.head? = some '#' ∨ isBlank line = true) := by
    rintro (h1 | h1)
    · exact h (Or.inl h1)
    · exact h (Or.inr ((isBlank_iff line).1 h1))
  rw [weightStep, if_neg hn, rstripEol_split]
  rfl

theorem weightStep_ok {float : Str → Res Rat} {d d' : Dict Str Rat} {line : Str} :
    weightStep float d line = .ok d' ↔
      (SaysNothing line ∧ d' = d) ∨ ∃ r w, GivesWeight float line r w ∧ d' = d.set r w := by
  by_cases h : SaysNothing line
  · rw [weightStep_nothing h]
    constructor
    · intro he
      injection he with he
      exact Or.inl ⟨h, he.symm⟩
    · rintro (⟨_, rfl⟩ | ⟨r, w, hg, _⟩)
      · rfl
      · exact absurd h hg.1
  · rw [weightStep_says h]
    constructor
    · intro he
      split at he
      · rename_i r x hs
        cases hf : float x with
        | error e => rw [hf] at he; cases he
        | ok v =>
          rw [hf] at he
          injection he with he
          exact Or.inr ⟨r, v, ⟨h, x, hs, hf⟩, he.symm⟩
      · cases he
    · rintro (⟨h1, _⟩ | ⟨r, w, ⟨_, x, hs, hf⟩, rfl⟩)
      · exact absurd h1 h
      · simp only [hs, hf]

theorem givesWeight_unique {float : Str → Res Rat} {line r r' : Str} {w w' : Rat}
    (h : GivesWeight float line r w) (h' : GivesWeight float line r' w') : r = r' ∧ w = w' := by
  obtain ⟨_, x, h1, h2⟩ := h
  obtain ⟨_, x', h1', h2'⟩ := h'
  rw [h1] at h1'
  injection h1' with e1 e2
  injection e2 with e2 _
  subst e1 e2
  rw [h2] at h2'
  injection h2' with h2'
  exact ⟨rfl, h2'⟩

/-- The table after more lines. -/
theorem weights_loop {float : Str → Res Rat} (lines : List Str) (d d' : Dict Str Rat)
    (h : forM' (weightStep float) d lines = .ok d') :
    (∀ l ∈ lines, SaysNothing l ∨ ∃ r w, GivesWeight float l r w) ∧
    ∀ r w, d'.get? r = some w ↔ LastWeight float lines r w ∨
      (d.get? r = some w ∧ ∀ l ∈ lines, ∀ w', ¬ GivesWeight float l r w') := by
  induction lines generalizing d with
  | nil =>
    simp only [forM', Except.ok.injEq] at h
    subst h
    refine ⟨by simp, fun r w => ?_⟩
    constructor
    · intro hg
      exact Or.inr ⟨hg, by simp⟩
    · rintro (⟨pre, line, post, he, _⟩ | ⟨hg, _⟩)
      · simp at he
      · exact hg
  | cons l lines ih =>
    rw [forM'] at h
    cases hs : weightStep float d l with
    | error e => rw [hs] at h; cases h
    | ok d1 =>
      rw [hs] at h
      obtain ⟨h1, h2⟩ := ih d1 h
      have hlast : ∀ r w, LastWeight float (l :: lines) r w ↔ LastWeight float lines r w ∨
          (GivesWeight float l r w ∧ ∀ x ∈ lines, ∀ w', ¬ GivesWeight float x r w') := by
        intro r w
        constructor
        · rintro ⟨pre, line, post, he, hg, hp⟩
          cases pre with
          | nil =>
            rw [List.nil_append] at he
            injection he with e1 e2
            subst e1 e2
            exact Or.inr ⟨hg, hp⟩
          | cons a pre =>
            rw [List.cons_append] at he
            injection he with e1 e2
            exact Or.inl ⟨pre, line, post, e2, hg, hp⟩
        · rintro (⟨pre, line, post, he, hg, hp⟩ | ⟨hg, hp⟩)
          · exact ⟨l :: pre, line, post, by rw [he, List.cons_append], hg, hp⟩
          · exact ⟨[], l, lines, rfl, hg, hp⟩
      rcases weightStep_ok.1 hs with ⟨hn, rfl⟩ | ⟨r0, w0, hg0, rfl⟩
      · have hno : ∀ r w, ¬ GivesWeight float l r w := fun r w hg => hg.1 hn
        refine ⟨?_, fun r w => ?_⟩
        · intro x hx
          rcases List.mem_cons.1 hx with rfl | hx
          · exact Or.inl hn
          · exact h1 x hx
        · rw [h2, hlast]
          simp only [List.forall_mem_cons]
          constructor
          · rintro (h | ⟨ha, hb⟩)
            · exact Or.inl (Or.inl h)
            · exact Or.inr ⟨ha, hno r, hb⟩
          · rintro ((h | ⟨h, _⟩) | ⟨ha, _, hb⟩)
            · exact Or.inl h
            · exact absurd h (hno r w)
            · exact Or.inr ⟨ha, hb⟩
      · refine ⟨?_, fun r w => ?_⟩
        · intro x hx
          rcases List.mem_cons.1 hx with rfl | hx
          · exact Or.inr ⟨r0, w0, hg0⟩
          · exact h1 x hx
        · rw [h2, hlast, Dict.get?_set]
          simp only [List.forall_mem_cons]
          by_cases hr : r = r0
          · subst hr
            rw [if_pos rfl]
            constructor
            · rintro (h | ⟨ha, hb⟩)
              · exact Or.inl (Or.inl h)
              · injection ha with ha
                subst ha
                exact Or.inl (Or.inr ⟨hg0, hb⟩)
            · rintro ((h | ⟨h, hb⟩) | ⟨_, hb, _⟩)
              · exact Or.inl h
              · exact Or.inr ⟨by rw [(givesWeight_unique hg0 h).2], hb⟩
              · exact absurd hg0 (hb w0)
          · rw [if_neg hr]
            constructor
            · rintro (h | ⟨ha, hb⟩)
              · exact Or.inl (Or.inl h)
              · exact Or.inr ⟨ha, fun w' hc => hr (givesWeight_unique hc hg0).1, hb⟩
            · rintro ((h | ⟨h, _⟩) | ⟨ha, _, hb⟩)
              · exact Or.inl h
              · exact absurd (givesWeight_unique h hg0).1 hr
              · exact Or.inr ⟨ha, hb⟩

/-! ### C100 -/

/-- C100: a weights file is accepted exactly if each line is a comment, blank, or gives a relation a weight; then
every relation has the weight of the last line about it and other relations have none in the table.  Without a
file there is no table. -/
theorem C100_file (float : Str → Res Rat) (lines : List Str) :
    loadWeights float none = .ok none ∧
    ((∃ d, loadWeights float (some lines) = .ok (some d)) ↔
      ∀ l ∈ lines, SaysNothing l ∨ ∃ r w, GivesWeight float l r w) ∧
    ∀ d, loadWeights float (some lines) = .ok (some d) →
      ∀ r w, d.get? r = some w ↔ LastWeight float lines r w := by
  have hload : ∀ d, loadWeights float (some lines) = .ok (some d) ↔
      forM' (weightStep float) Dict.empty lines = .ok d := by
    intro d
    rw [loadWeights]
    cases forM' (weightStep float) Dict.empty lines with
    | error e => simp
    | ok x => simp
  refine ⟨rfl, ⟨?_, ?_⟩, ?_⟩
  · rintro ⟨d, h⟩
    exact (weights_loop lines _ _ ((hload d).1 h)).1
  · intro h
    have key : ∀ (ls : List Str) (d : Dict Str Rat),
        (∀ l ∈ ls, SaysNothing l ∨ ∃ r w, GivesWeight float l r w) →
        ∃ d', forM' (weightStep float) d ls = .ok d' := by
      intro ls
      induction ls with
      | nil => intro d _; exact ⟨d, rfl⟩
      | cons l ls ih =>
        intro d hl
        rcases hl l (by simp) with hn | ⟨r, w, hg⟩
        · rw [forM', weightStep_ok.2 (Or.inl ⟨hn, rfl⟩)]
          exact ih d (fun x hx => hl x (List.mem_cons_of_mem _ hx))
        · rw [forM', weightStep_ok.2 (Or.inr ⟨r, w, hg, rfl⟩)]
          exact ih _ (fun x hx => hl x (List.mem_cons_of_mem _ hx))
    obtain ⟨d, hd⟩ := key lines Dict.empty h
    exact ⟨d, (hload d).2 hd⟩
  · intro d h r w
    rw [(weights_loop lines _ _ ((hload d).1 h)).2 r w]
    simp [Dict.get?_empty]

/-- C100: a line that is neither comment nor blank and does not have exactly two fields is refused with
`ValueError`, if the lines before it are in order; whatever follows. -/
theorem C100_columns (float : Str → Res Rat) (pre : List Str) (line : Str) (post : List Str)
    (hpre : ∀ l ∈ pre, SaysNothing l ∨ ∃ r w, GivesWeight float l r w) (hs : ¬ SaysNothing line)
    (hc : (splitWs line).length ≠ 2) :
    loadWeights float (some (pre ++ line :: post)) = .error .value := by
  obtain ⟨d, hd⟩ := (C100_file float pre).2.1.2 hpre
  have hf : forM' (weightStep float) Dict.empty pre = .ok d := by
    rw [loadWeights] at hd
    cases h : forM' (weightStep float) Dict.empty pre with
    | error e => rw [h] at hd; cases hd
    | ok x =>
      rw [h] at hd
      injection hd with hd
      injection hd with hd
      rw [hd]
  rw [loadWeights, forM'_append, hf]
  have : weightStep float d line = .error .value := by
    rw [weightStep_says hs]
    split
    · rename_i r x h
      rw [h] at hc
      exact absurd rfl hc
    · rfl
  simp only [forM', this]

/-- C100: with a table of weights nothing changes but that WeightedLAS is added; with an empty table it is LAS, with
weight 0 for the relations of function words and 1 for others it is CLAS. -/
theorem C100_weighted (lower : Str → Str) (gold sys : UD) :
    (∀ ws m, evaluate lower gold sys (some ws) = .ok m →
      ∃ s, m.weighted = some s ∧ evaluate lower gold sys none = .ok { m with weighted := none }) ∧
    (∀ m, evaluate lower gold sys none = .ok m → ∀ ws, ∃ s,
      m.weighted = none ∧ evaluate lower gold sys (some ws) = .ok { m with weighted := some s } ∧
      ((∀ r, ws.get? r = none) → s = m.las) ∧
      ((∀ w : UDWord, tableWeight ws w = clasWeight w) → s = m.clas)) := by
  unfold evaluate
  by_cases hc : gold.characters ≠ sys.characters
  · simp [hc]
  · simp only [hc, if_false]
    cases alignWords lower gold.words sys.words with
    | error e => simp
    | ok pairs =>
      simp only
      cases fillParents gold.words sys.words pairs with
      | error e => simp
      | ok matched =>
        simp only [Except.ok.injEq]
        refine ⟨?_, ?_⟩
        · rintro ws m rfl
          exact ⟨_, rfl, rfl⟩
        · rintro m rfl ws
          refine ⟨_, rfl, rfl, ?_, ?_⟩
          · intro h
            have : weightedLas ws = unitWeight := by
              funext w
              rw [weightedLas, h]
              rfl
            simp only [metricsOf, this]
          · intro h
            have : weightedLas ws = weightedLas clasWeights := by
              funext w
              rw [weightedLas_clas, ← h]
              rfl
            simp only [metricsOf, this]

theorem cutDeprel_no_colon (r : List Str) : ':' ∉ colOf (cutDeprel r) colDEPREL := by
  unfold cutDeprel colOf
  rw [List.getD_eq_getElem?_getD, List.getElem?_modify]
  intro h
  cases hr : r[colDEPREL]? with
  | none => simp [hr] at h
  | some d =>
    simp only [hr, if_true, Option.map_some, Option.getD_some] at h
    have := List.all_eq_true.1 List.all_takeWhile _ h
    simp at this

theorem udLines_no_colon {k : Nat} {ls : List Str} {us : List UdToken} (h : UdLines k ls us) :
    ∀ u ∈ us, ∀ r ∈ u.rows, ':' ∉ colOf r colDEPREL := by
  induction h with
  | nil => simp
  | skip _ _ _ _ ih => exact ih
  | word _ _ _ _ _ _ _ _ _ _ ih =>
    intro u hu r hr
    rcases List.mem_cons.1 hu with rfl | hu
    · rw [List.mem_singleton] at hr
      rw [hr]
      exact cutDeprel_no_colon _
    · exact ih u hu r hr
  | multi _ _ _ _ _ _ _ _ _ _ _ ih =>
    intro u hu r hr
    rcases List.mem_cons.1 hu with rfl | hu
    · obtain ⟨w, _, rfl⟩ := List.mem_map.1 hr
      exact cutDeprel_no_colon _
    · exact ih u hu r hr

theorem evalTokWords_rows {off : Nat} {us : List UdToken} {p : Span × Bool × List Str} (h : p ∈ tokWords off us) :
    ∃ u ∈ us, p.2.2 ∈ u.rows := by
  induction us generalizing off with
  | nil => simp [tokWords] at h
  | cons u us ih =>
    rw [tokWords, List.mem_append] at h
    rcases h with h | h
    · obtain ⟨r, hr, rfl⟩ := List.mem_map.1 h
      exact ⟨u, by simp, hr⟩
    · obtain ⟨v, hv, hr⟩ := ih h
      exact ⟨v, List.mem_cons_of_mem _ hv, hr⟩

theorem loaded_no_colon {ud : UD} (h : Loaded ud) : ∀ w ∈ ud.words, ':' ∉ colOf w.columns colDEPREL := by
  obtain ⟨depth, text, h⟩ := h
  obtain ⟨sents, h1, h2, _⟩ := C24_loaded_trees h
  have hs : ∀ {ls : List Str} {sents : List (List UdToken)}, UdSents ls sents →
      ∀ us ∈ sents, ∀ u ∈ us, ∀ r ∈ u.rows, ':' ∉ colOf r colDEPREL := by
    intro ls sents hu
    induction hu with
    | nil _ => simp
    | cons _ _ hb _ ih =>
      intro us hus
      rcases List.mem_cons.1 hus with rfl | hus
      · exact udLines_no_colon hb
      · exact ih us hus
  intro w hw
  have hm : (w.span, w.multi, w.columns) ∈ tokWords 0 sents.flatten := by
    rw [← h2.words]
    exact List.mem_map.2 ⟨w, hw, rfl⟩
  obtain ⟨u, hu, hr⟩ := evalTokWords_rows hm
  obtain ⟨us, hus, huu⟩ := List.mem_flatten.1 hu
  exact hs h1 us hus u huu _ hr

theorem mapM'_mem {α β : Type} {f : α → Res β} {l : List α} {r : List β} (h : mapM' f l = .ok r) {b : β}
    (hb : b ∈ r) : ∃ a, f a = .ok b := by
  rw [mapM'_ok_iff] at h
  induction h with
  | nil => simp at hb
  | cons h1 _ ih =>
    rcases List.mem_cons.1 hb with rfl | hb
    · exact ⟨_, h1⟩
    · exact ih hb

theorem wordAt_mem {words : List UDWord} {i : Nat} {w : UDWord} (h : wordAt words i = .ok w) : w ∈ words := by
  unfold wordAt at h
  split at h
  · rename_i hg
    injection h with h
    exact h ▸ List.mem_of_getElem? hg
  · cases h

/-- C100: subtypes are removed from relations, so a weight for a relation with a subtype has no effect: tables that
agree on all relations without a colon give the same result. -/
theorem C100_subtypes (lower : Str → Str) (gold sys : UD) (hg : Loaded gold) (hs : Loaded sys)
    (ws ws' : Dict Str Rat) (h : ∀ r : Str, ':' ∉ r → ws.get? r = ws'.get? r) :
    evaluate lower gold sys (some ws) = evaluate lower gold sys (some ws') := by
  unfold evaluate
  split
  · rfl
  · cases alignWords lower gold.words sys.words with
    | error e => rfl
    | ok pairs =>
      simp only
      cases hf : fillParents gold.words sys.words pairs with
      | error e => rfl
      | ok matched =>
        have hwt : ∀ w : UDWord, ':' ∉ colOf w.columns colDEPREL → weightedLas ws w = weightedLas ws' w := by
          intro w hw
          have := h _ hw
          simp only [weightedLas, UDWord.col]
          rw [this]
        have hsum : ∀ l : List UDWord, (∀ w ∈ l, ':' ∉ colOf w.columns colDEPREL) →
            totalWeight (weightedLas ws) l = totalWeight (weightedLas ws') l := by
          intro l hl
          rw [totalWeight, totalWeight, List.map_congr_left (fun w hw => hwt w (hl w hw))]
        have hm : ∀ a ∈ matched, a.gold ∈ gold.words := by
          intro a ha
          obtain ⟨p, hp⟩ := mapM'_mem hf ha
          cases h1 : wordAt gold.words p.1 with
          | error e => rw [h1] at hp; cases hp
          | ok g =>
            cases h2 : wordAt sys.words p.2 with
            | error e => rw [h1, h2] at hp; cases hp
            | ok s =>
              rw [h1, h2] at hp
              injection hp with hp
              rw [← hp]
              exact wordAt_mem h1
        have hmg : ∀ l : List AWord, (∀ a ∈ l, a ∈ matched) →
            totalWeight (weightedLas ws) (l.map AWord.gold) = totalWeight (weightedLas ws') (l.map AWord.gold) := by
          intro l hl
          apply hsum
          intro w hw
          obtain ⟨a, ha, rfl⟩ := List.mem_map.1 hw
          exact loaded_no_colon hg _ (hm a (hl a ha))
        have hk : keyScore gold.words sys.words matched lasKey (weightedLas ws) =
            keyScore gold.words sys.words matched lasKey (weightedLas ws') := by
          rw [keyScore, keyScore, hsum _ (loaded_no_colon hg), hsum _ (loaded_no_colon hs),
            hmg matched (fun a ha => ha), hmg _ (fun a ha => (List.mem_filter.1 ha).1)]
        simp only [metricsOf, Option.map_some, hk]

namespace Demo

def negGold : Str := "1\ta\t_\tX\t_\t_\t0\troot\t_\t_\n2\tb\t_\tX\t_\t_\t1\tobj\t_\t_\n\n".toList

def negSys : Str := "1\ta\t_\tX\t_\t_\t0\troot\t_\t_\n2\tb\t_\tX\t_\t_\t1\tdep\t_\t_\n\n".toList

/-- Numbers for the examples: integers only. -/
def floatQ (s : Str) : Res Rat := (pyInt s).map (fun n => (n : Rat))

end Demo

/-- C100: with a negative weight, WeightedLAS need not lie between 0 and 1 (see `C32_bounded` for non-negative
ones): here the F1 score is 200 %. -/
theorem C100_negative_refuted : ¬ ∀ (float : Str → Res Rat) (lower : Str → Str) (depth : Nat) (a : EvalArgs) (m : Metrics),
    evaluateWrapper float lower depth a = .ok m → ∀ s ∈ m.scores, ScoreBounded s := by
  intro h
  have hr : ((evaluateWrapper (fun _ => .ok (-1 / 2)) id 10
      ⟨Demo.negGold, Demo.negSys, some "obj x\ndep x\n".toList, 0⟩).toOption.bind
        Metrics.weighted).map Score.f1 = some 2 := by decide +kernel
  cases he : evaluateWrapper (fun _ => .ok (-1 / 2)) id 10
      ⟨Demo.negGold, Demo.negSys, some "obj x\ndep x\n".toList, 0⟩ with
  | error e => rw [he] at hr; cases hr
  | ok m =>
    rw [he] at hr
    cases hw : m.weighted with
    | none => simp [Except.toOption, hw] at hr
    | some s =>
      simp only [Except.toOption, Option.bind_some, hw, Option.map_some, Option.some.injEq] at hr
      have hb := h _ _ _ _ _ he s (by simp [Metrics.scores, hw])
      have h2 := hb.f1.2.trans (max_le hb.precision.2 hb.recall.2)
      rw [hr] at h2
      exact absurd h2 (by decide)

example : (loadWeights Demo.floatQ (some ["# x\n".toList, " \r\n".toList, "obj 2\n".toList, "obj\t3\r\n".toList])).map
    (Option.map Dict.entries) = .ok (some [("obj".toList, 3)]) := by decide +kernel
example : (loadWeights Demo.floatQ (some ["obj 2 # twice".toList])).map (Option.map Dict.entries) = .error .value := by
  decide +kernel

/-! ### C101 -/

/-- The percentages of a score. -/
def percent (s : Score) : Rat × Rat × Rat × Option Rat :=
  (100 * s.precision, 100 * s.recall, 100 * s.f1, s.aligned.map (fun x => 100 * x))

theorem byName_eq (m : Metrics) :
    m.byName = Dict.ofList ((reportNames m.weighted.isSome).zip m.scores) := by
  cases hw : m.weighted <;> simp [Metrics.byName, reportNames, Metrics.scores, hw]

theorem reportNames_nodup (b : Bool) : (reportNames b).Nodup := by
  cases b <;> decide

theorem reportNames_length (m : Metrics) : (reportNames m.weighted.isSome).length = m.scores.length := by
  cases hw : m.weighted <;> simp [reportNames, Metrics.scores, hw]

theorem byName_get (m : Metrics) {n : Str} {s : Score}
    (h : (n, s) ∈ (reportNames m.weighted.isSome).zip m.scores) : m.byName.getItem n = .ok s := by
  have hn : (((reportNames m.weighted.isSome).zip m.scores).map Prod.fst).Nodup := by
    rw [List.map_fst_zip (le_of_eq (reportNames_length m))]
    exact reportNames_nodup _
  have : m.byName.get? n = some s := by
    rw [byName_eq, Dict.get?_mem, Dict.ofList_entries _ hn]
    exact h
  rw [Dict.getItem, this]

theorem byName_las (m : Metrics) : m.byName.getItem "LAS".toList = .ok m.las := by
  apply byName_get
  cases hw : m.weighted <;> simp [reportNames, Metrics.scores, hw]

theorem byName_rows (m : Metrics) :
    mapM' (reportRow m.byName) (reportNames m.weighted.isSome) =
      .ok ((reportNames m.weighted.isSome).zip (m.scores.map percent)) := by
  rw [mapM'_ok_iff, List.forall₂_iff_get]
  refine ⟨by simp [reportNames_length], ?_⟩
  intro i h1 h2
  simp only [List.get_eq_getElem, List.getElem_zip, List.getElem_map]
  have h3 : i < m.scores.length := by rw [← reportNames_length]; exact h1
  have := byName_get m (n := (reportNames m.weighted.isSome)[i]) (s := m.scores[i]) (by
    rw [List.mem_iff_getElem]
    exact ⟨i, by simp [reportNames_length, h3], by simp⟩)
  rw [reportRow, this]
  rfl

theorem wrapper_weighted {float : Str → Res Rat} {lower : Str → Str} {depth : Nat} {a : EvalArgs} {m : Metrics}
    (h : evaluateWrapper float lower depth a = .ok m) : m.weighted.isSome = a.weights.isSome := by
  unfold evaluateWrapper at h
  split at h
  · cases h
  · split at h
    · cases h
    · split at h
      · cases h
      · rename_i _ g _ _ s _ _ ws hl
        have hws : ws.isSome = a.weights.isSome := by
          cases hw : a.weights with
          | none =>
            rw [hw] at hl
            injection hl with hl
            rw [← hl]
            rfl
          | some t =>
            rw [hw, Option.map_some, loadWeights] at hl
            split at hl
            · cases hl
            · injection hl with hl
              rw [← hl]
              rfl
        rw [← hws]
        cases ws with
        | none =>
          unfold evaluate at h
          split at h
          · cases h
          · split at h
            · cases h
            · split at h
              · cases h
              · injection h with h
                rw [← h]
                rfl
        | some d =>
          obtain ⟨x, hx, _⟩ := (C100_weighted lower g s).1 d m h
          rw [hx]
          rfl

/-- C101: the program fails exactly if reading the files or the evaluation fails, with the same error.  Otherwise it
prints the F1 score of LAS if called without options, and the table of all scores in their fixed order if it
is verbose or has weights. -/
theorem C101_report (float : Str → Res Rat) (lower : Str → Str) (depth : Nat) (a : EvalArgs) :
    (∀ e, evalMain float lower depth a = .error e ↔ evaluateWrapper float lower depth a = .error e) ∧
    ∀ m, evaluateWrapper float lower depth a = .ok m →
      (a.verbose = 0 → a.weights = none → evalMain float lower depth a = .ok (.las (100 * m.las.f1))) ∧
      (a.verbose ≠ 0 ∨ a.weights ≠ none → ∃ rows, evalMain float lower depth a = .ok (.table rows) ∧
        rows.map Prod.snd = m.scores.map percent ∧
        rows.map Prod.fst = ["Tokens", "Sentences", "Words", "UPOS", "XPOS", "Feats", "AllTags", "Lemmas", "UAS",
          "LAS", "CLAS"].map String.toList ++ (if a.weights = none then [] else ["WeightedLAS".toList])) := by
  have hok : ∀ m, evaluateWrapper float lower depth a = .ok m →
      (a.verbose = 0 ∧ a.weights = none → evalMain float lower depth a = .ok (.las (100 * m.las.f1))) ∧
      (¬ (a.verbose = 0 ∧ a.weights = none) → evalMain float lower depth a =
        .ok (.table ((reportNames m.weighted.isSome).zip (m.scores.map percent)))) := by
    intro m h
    refine ⟨fun hv => ?_, fun hv => ?_⟩
    · simp only [evalMain, h, if_pos hv, byName_las]
    · simp only [evalMain, h, if_neg hv, ← wrapper_weighted h, byName_rows]
  refine ⟨?_, ?_⟩
  · intro e
    cases h : evaluateWrapper float lower depth a with
    | error e' => simp only [evalMain, h, Except.error.injEq]
    | ok m =>
      constructor
      · intro he
        by_cases hv : a.verbose = 0 ∧ a.weights = none
        · rw [(hok m h).1 hv] at he; cases he
        · rw [(hok m h).2 hv] at he; cases he
      · intro he
        cases he
  · intro m h
    refine ⟨fun h1 h2 => (hok m h).1 ⟨h1, h2⟩, fun hv => ⟨_, (hok m h).2 (by tauto), ?_, ?_⟩⟩
    · have hl : (reportNames m.weighted.isSome).length = (m.scores.map percent).length := by
        cases hw : m.weighted <;> simp [reportNames, Metrics.scores, hw]
      exact List.map_snd_zip (le_of_eq hl.symm)
    · have hl : (reportNames m.weighted.isSome).length = (m.scores.map percent).length := by
        cases hw : m.weighted <;> simp [reportNames, Metrics.scores, hw]
      rw [List.map_fst_zip (le_of_eq hl), wrapper_weighted h]
      cases a.weights <;> rfl

example : evalMain Demo.floatQ id 10 ⟨Demo.negGold, Demo.negSys, none, 0⟩ = .ok (.las 50) := by decide +kernel
example : (match evalMain Demo.floatQ id 10 ⟨Demo.negGold, Demo.negSys, some "obj 0\n".toList, 0⟩ with
    | .ok (.table rows) => rows.drop 9
    | _ => []) =
    [("LAS".toList, 50, 50, 50, some 50), ("CLAS".toList, 50, 50, 50, some 50),
      ("WeightedLAS".toList, 50, 100, 200 / 3, some 100)] := by decide +kernel

end Verif
