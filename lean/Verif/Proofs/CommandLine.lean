import Verif.Spec.CommandLine
import Mathlib.Data.List.Induction

/-! # Proofs about command lines -/

namespace Verif

theorem Opt.name_inj {o o' : Opt} (h : o.name = o'.name) : o = o' := by
  revert h
  cases o <;> cases o' <;> decide

theorem Opt.name_eq (o : Opt) : '=' ∉ o.name := by cases o <;> decide

theorem Opt.name_head (o : Opt) : o.name.head? = some '-' := by cases o <;> rfl

theorem Opt.name_long (o : Opt) (h : o ≠ .shortHelp) : "--".toList <+: o.name := by
  cases o <;> first | exact absurd rfl h | decide

theorem find_name {opts : List Opt} {o : Opt} (h : o ∈ opts) : opts.find? (fun x => x.name = o.name) = some o := by
  cases hf : opts.find? (fun x => x.name = o.name) with
  | none => exact absurd (List.find?_eq_none.1 hf o h) (by simp)
  | some x =>
    have h' := List.find?_some hf
    simp only [decide_eq_true_eq] at h'
    rw [Opt.name_inj h']

theorem find_name_some {opts : List Opt} {o : Opt} {s : Str} (h : opts.find? (fun x => x.name = s) = some o) : o ∈ opts ∧ s = o.name := by
  have h' := List.find?_some h
  simp only [decide_eq_true_eq] at h'
  exact ⟨List.mem_of_find?_eq_some h, h'.symm⟩

theorem splitEq_plain {s : Str} (h : '=' ∉ s) : splitEq s = (s, none) := by
  have h1 : ∀ x ∈ s, (decide (x ≠ '=')) = true := fun x hx => decide_eq_true (fun hc => h (hc ▸ hx))
  unfold splitEq
  have h2 : s.takeWhile (· ≠ '=') = s := by simpa using List.takeWhile_append_of_pos (l₂ := []) h1
  have h3 : s.dropWhile (· ≠ '=') = [] := by simpa using List.dropWhile_append_of_pos (l₂ := []) h1
  rw [h2, h3]

theorem splitEq_joined {s : Str} (h : '=' ∉ s) (v : Str) : splitEq (s ++ '=' :: v) = (s, some v) := by
  have h1 : ∀ x ∈ s, (decide (x ≠ '=')) = true := fun x hx => decide_eq_true (fun hc => h (hc ▸ hx))
  unfold splitEq
  rw [List.takeWhile_append_of_pos h1, List.dropWhile_append_of_pos h1]
  simp

theorem splitEq_cases (arg : Str) : ('=' ∉ arg ∧ splitEq arg = (arg, none)) ∨
    ∃ s v, '=' ∉ s ∧ arg = s ++ '=' :: v ∧ splitEq arg = (s, some v) := by
  by_cases h : '=' ∈ arg
  · obtain ⟨s, v, rfl, hs⟩ := List.eq_append_cons_of_mem h
    exact .inr ⟨s, v, hs, rfl, splitEq_joined hs v⟩
  · exact .inl ⟨h, splitEq_plain h⟩

theorem filter_single {α : Type} [DecidableEq α] {l : List α} (hn : l.Nodup) {p : α → Bool} {a : α} :
    l.filter p = [a] ↔ a ∈ l ∧ p a = true ∧ ∀ b ∈ l, p b = true → b = a := by
  constructor
  · intro h
    have ha : a ∈ l.filter p := by rw [h]; exact List.mem_singleton_self a
    rw [List.mem_filter] at ha
    refine ⟨ha.1, ha.2, fun b hb hp => ?_⟩
    have : b ∈ l.filter p := List.mem_filter.2 ⟨hb, hp⟩
    rw [h] at this
    exact List.mem_singleton.1 this
  · rintro ⟨h1, h2, h3⟩
    have hnod := hn.filter p
    have ha : a ∈ l.filter p := List.mem_filter.2 ⟨h1, h2⟩
    have hall : ∀ b ∈ l.filter p, b = a := fun b hb => h3 b (List.mem_filter.1 hb).1 (List.mem_filter.1 hb).2
    generalize l.filter p = m at hnod ha hall
    match m, hnod, ha, hall with
    | [x], _, _, hall => rw [hall x List.mem_cons_self]
    | x :: y :: r, hnod, _, hall =>
      have e1 := hall x List.mem_cons_self
      have e2 := hall y (List.mem_cons_of_mem _ List.mem_cons_self)
      rw [List.nodup_cons] at hnod
      exact absurd (e1.trans e2.symm ▸ List.mem_cons_self) hnod.1

/-- The abbreviations of long options. -/
theorem optionTuples_long {opts : List Opt} {arg : Str} (h : "--".toList <+: arg) :
    optionTuples opts arg = (opts.filter fun o => (splitEq arg).1.isPrefixOf o.name).map fun o => (o, (splitEq arg).2) := by
  obtain ⟨r, rfl⟩ := h
  rfl

/-- A short argument. -/
theorem optionTuples_short {opts : List Opt} (hn : opts.Nodup) (hs : .shortHelp ∈ opts) {c : Char} {r : Str} (hc : c ≠ '-') :
    optionTuples opts ('-' :: c :: r) = if c = 'h' then [(.shortHelp, some r)] else [] := by
  have e : optionTuples opts ('-' :: c :: r) = opts.filterMap fun o =>
      if o.name = ['-', c] then some (o, some r) else if ('-' :: c :: r).isPrefixOf o.name then some (o, none) else none := by
    rw [optionTuples]
    exact hc
  rw [e]
  by_cases hh : c = 'h'
  · subst hh
    rw [if_pos rfl]
    have hall : ∀ o : Opt, (if o.name = ['-', 'h'] then some (o, some r) else if ('-' :: 'h' :: r).isPrefixOf o.name then some (o, none) else none) =
        if o = .shortHelp then some (o, some r) else none := by
      intro o
      by_cases ho : o = .shortHelp
      · subst ho
        rw [if_pos (by decide), if_pos rfl]
      · obtain ⟨t, ht⟩ := o.name_long ho
        rw [← ht, if_neg ho]
        change (if ('-' :: '-' :: t) = ['-', 'h'] then _ else if ('-' :: 'h' :: r).isPrefixOf ('-' :: '-' :: t) then _ else _) = none
        simp [List.isPrefixOf]
    simp only [hall]
    have hf : (opts.filter fun o => o = .shortHelp) = [.shortHelp] :=
      (filter_single hn).2 ⟨hs, by simp, fun b _ h => of_decide_eq_true h⟩
    have : (opts.filterMap fun o => if o = Opt.shortHelp then some (o, some r) else none) =
        (opts.filter fun o => o = .shortHelp).map fun o => (o, some r) := by
      clear hn hs e hf
      induction opts with
      | nil => rfl
      | cons x xs ih =>
        rw [List.filterMap_cons, List.filter_cons]
        by_cases hx : x = .shortHelp
        · simp [hx, ih]
        · simp [hx, ih]
    rw [this, hf]
    rfl
  · rw [if_neg hh, List.filterMap_eq_nil_iff]
    intro o _
    by_cases ho : o = .shortHelp
    · subst ho
      change (if ['-', 'h'] = ['-', c] then _ else if ('-' :: c :: r).isPrefixOf ['-', 'h'] then _ else _) = none
      simp [List.isPrefixOf, Ne.symm hh, hh]
    · obtain ⟨t, ht⟩ := o.name_long ho
      rw [← ht]
      change (if ('-' :: '-' :: t) = ['-', c] then _ else if ('-' :: c :: r).isPrefixOf ('-' :: '-' :: t) then _ else _) = none
      simp [List.isPrefixOf, Ne.symm hc, hc]

theorem looksNegative_iff (v : Str) : looksNegative v = true ↔ NegativeNumber v := by
  unfold NegativeNumber
  cases v with
  | nil => simp [looksNegative]
  | cons m ds =>
    by_cases hm : m = '-'
    · subst hm
      simp only [looksNegative, Bool.or_eq_true, Bool.and_eq_true, Bool.not_eq_true', List.isEmpty_eq_false_iff, List.all_eq_true,
        List.cons.injEq, true_and, exists_eq_left']
      refine or_congr Iff.rfl ?_
      constructor
      · intro h
        split at h
        · rename_i fs hfs
          rw [Bool.and_eq_true, Bool.not_eq_true', List.isEmpty_eq_false_iff, List.all_eq_true] at h
          refine ⟨ds.takeWhile Char.isDigit, fs, ?_, h.1, ?_, h.2⟩
          · rw [← hfs, List.takeWhile_append_dropWhile]
          · intro c hc
            exact (List.all_eq_true.1 List.all_takeWhile) c hc
        · cases h
      · rintro ⟨a, b, rfl, hb, ha, hb'⟩
        rw [List.dropWhile_append_of_pos ha, List.dropWhile_cons_of_neg (by decide)]
        simp only [Bool.and_eq_true, Bool.not_eq_true', List.isEmpty_eq_false_iff, List.all_eq_true]
        exact ⟨hb, hb'⟩
    · constructor
      · intro h
        rw [looksNegative] at h
        · cases h
        · intro ds' h'
          injection h' with h'
          exact hm h'
      · rintro ⟨_, h, _⟩
        injection h with h
        exact absurd h hm

theorem NamesOpt.noEq {opts : List Opt} {s : Str} {o : Opt} (h : NamesOpt opts s o) : '=' ∉ s := by
  rcases h.2 with rfl | ⟨_, h, _⟩
  · exact o.name_eq
  · exact fun hc => o.name_eq (h.subset hc)

theorem NamesOpt.head {opts : List Opt} {s : Str} {o : Opt} (h : NamesOpt opts s o) : s.head? = some '-' := by
  rcases h.2 with rfl | ⟨⟨r, rfl⟩, _, _⟩
  · exact o.name_head
  · rfl

theorem isPrefixOf_names {opts : List Opt} {s : Str} {o : Opt} (hn : opts.Nodup) (ho : o ∈ opts) (h2 : s <+: o.name)
    (h3 : ∀ o' ∈ opts, s <+: o'.name → o' = o) : (opts.filter fun o => s.isPrefixOf o.name) = [o] :=
  (filter_single hn).2 ⟨ho, List.isPrefixOf_iff_prefix.2 h2, fun b hb hp => h3 b hb (List.isPrefixOf_iff_prefix.1 hp)⟩

/-- An argument that names an option. -/
theorem classify_name {opts : List Opt} (hn : opts.Nodup) {s : Str} {o : Opt} (h : NamesOpt opts s o) :
    classifyArg opts s = .opt o none := by
  have hh := h.head
  have he := splitEq_plain h.noEq
  obtain ⟨ho, rfl | ⟨h1, h2, h3⟩⟩ := h
  · rw [classifyArg, if_neg (by rw [hh]; simp), find_name ho]
  · rw [classifyArg, if_neg (by rw [hh]; simp)]
    cases hf : opts.find? (fun x => x.name = s) with
    | some x =>
      obtain ⟨hx, rfl⟩ := find_name_some hf
      rw [h3 x hx (List.prefix_refl _)]
    | none =>
      have hd : s ≠ ['-'] := by
        rintro rfl
        exact absurd h1 (by decide)
      simp only [if_neg hd, he, Option.bind_none]
      rw [optionTuples_long h1, he]
      simp only [isPrefixOf_names hn ho h2 h3, List.map_cons, List.map_nil]

/-- An argument that names an option and gives a value. -/
theorem classify_joined {opts : List Opt} (hn : opts.Nodup) {s v : Str} {o : Opt} (h : NamesOpt opts s o) :
    classifyArg opts (s ++ '=' :: v) = .opt o (some v) := by
  have hh : (s ++ '=' :: v).head? = some '-' := by rw [List.head?_append, h.head]; rfl
  have he := splitEq_joined h.noEq v
  rw [classifyArg, if_neg (by rw [hh]; simp)]
  cases hf : opts.find? (fun x => x.name = s ++ '=' :: v) with
  | some x =>
    obtain ⟨_, hx⟩ := find_name_some hf
    exact absurd (hx ▸ List.mem_append_right s List.mem_cons_self) x.name_eq
  | none =>
    have hd : s ++ '=' :: v ≠ ['-'] := fun hc => absurd (hc ▸ List.mem_append_right s (List.mem_cons_self (a := '=') (l := v))) (by decide)
    simp only [if_neg hd, he, Option.bind_some]
    obtain ⟨ho, rfl | ⟨h1, h2, h3⟩⟩ := h
    · rw [find_name ho]
      rfl
    · cases hg : opts.find? (fun x => x.name = s) with
      | some x =>
        obtain ⟨hx, rfl⟩ := find_name_some hg
        rw [Option.map_some, h3 x hx (List.prefix_refl _)]
      | none =>
        rw [optionTuples_long (h1.trans (List.prefix_append _ _)), he]
        simp only [Option.map_none, isPrefixOf_names hn ho h2 h3, List.map_cons, List.map_nil]

/-- A first character and a second one, or `-`. -/
theorem dash_cases {arg : Str} (h : arg.head? = some '-') : arg = ['-'] ∨ "--".toList <+: arg ∨ ∃ c r, c ≠ '-' ∧ arg = '-' :: c :: r := by
  match arg, h with
  | [x], h => injection h with h; subst h; exact .inl rfl
  | x :: c :: r, h =>
    injection h with h
    subst h
    by_cases hc : c = '-'
    · subst hc; exact .inr (.inl ⟨r, rfl⟩)
    · exact .inr (.inr ⟨c, r, hc, rfl⟩)

theorem filter_map_single {opts : List Opt} {s : Str} {e : Option Str} {x : Opt × Option Str} (hn : opts.Nodup)
    (h : ((opts.filter fun o => s.isPrefixOf o.name).map fun o => (o, e)) = [x]) :
    x.1 ∈ opts ∧ s <+: x.1.name ∧ (∀ o' ∈ opts, s <+: o'.name → o' = x.1) ∧ x.2 = e := by
  obtain ⟨o, ho, rfl⟩ : ∃ o, (opts.filter fun o => s.isPrefixOf o.name) = [o] ∧ (o, e) = x := by
    generalize (opts.filter fun o => s.isPrefixOf o.name) = m at h
    match m, h with
    | [o], h => exact ⟨o, rfl, by simpa using h⟩
  obtain ⟨h1, h2, h3⟩ := (filter_single hn).1 ho
  exact ⟨h1, List.isPrefixOf_iff_prefix.1 h2, fun o' ho' hp => h3 o' ho' (List.isPrefixOf_iff_prefix.2 hp), rfl⟩

/-- What an option argument looks like. -/
theorem classify_opt {opts : List Opt} (hn : opts.Nodup) (hs : .shortHelp ∈ opts) {arg : Str} {o : Opt} {e : Option Str}
    (h : classifyArg opts arg = .opt o e) :
    (e = none ∧ NamesOpt opts arg o) ∨ (o = .shortHelp ∧ e ≠ none) ∨ ∃ s v, e = some v ∧ NamesOpt opts s o ∧ arg = s ++ '=' :: v := by
  rw [classifyArg] at h
  split at h
  · cases h
  rename_i hh
  replace hh : arg.head? = some '-' := by simpa using hh
  split at h
  · rename_i o' hf
    obtain ⟨h1, h2⟩ := find_name_some hf
    injection h with h3 h4
    subst h3
    exact .inl ⟨h4.symm, h1, .inl h2⟩
  rename_i hf
  split at h
  · cases h
  rename_i hd
  split at h
  · rename_i o' v hb
    injection h with h3 h4
    subst h3
    rcases splitEq_cases arg with ⟨_, hq⟩ | ⟨s, w, _, rfl, hq⟩
    · rw [hq] at hb; cases hb
    · rw [hq] at hb
      simp only [Option.bind_some, Option.map_eq_some_iff, Prod.mk.injEq, exists_eq_right_right] at hb
      obtain ⟨a, ha, rfl, rfl⟩ := hb
      obtain ⟨h1, h2⟩ := find_name_some ha
      exact .inr (.inr ⟨s, _, h4.symm, ⟨h1, .inl h2⟩, rfl⟩)
  · split at h
    · rename_i x ht
      injection h with h3 h4
      subst h3
      rcases dash_cases hh with rfl | hl | ⟨c, r, hc, rfl⟩
      · exact absurd rfl hd
      · rw [optionTuples_long hl] at ht
        obtain ⟨g1, g2, g3, g4⟩ := filter_map_single hn ht
        rcases splitEq_cases arg with ⟨_, hq⟩ | ⟨s, w, hs', rfl, hq⟩
        · rw [hq] at g2 g3 g4
          exact .inl ⟨h4 ▸ g4, g1, .inr ⟨hl, g2, g3⟩⟩
        · rw [hq] at g2 g3 g4
          have hl' : "--".toList <+: s := by
            match s, hs', hl with
            | [], _, hl => exact absurd hl (by simp)
            | [a], _, hl =>
              obtain ⟨r, hr⟩ := hl
              simp at hr
            | a :: b :: s, _, hl =>
              obtain ⟨r, hr⟩ := hl
              simp only [String.toList, List.cons_append] at hr
              injection hr with e1 hr
              injection hr with e2 hr
              subst e1 e2
              exact ⟨s, rfl⟩
          exact .inr (.inr ⟨s, w, h4 ▸ g4, ⟨g1, .inr ⟨hl', g2, g3⟩⟩, rfl⟩)
      · rw [optionTuples_short hn hs hc] at ht
        split at ht
        · injection ht with ht _
          subst ht h4
          exact .inr (.inl ⟨rfl, by simp⟩)
        · cases ht
    · cases h
    · split at h
      · cases h
      · split at h <;> cases h

theorem long_before_eq {s w : Str} (h : "--".toList <+: s ++ '=' :: w) : "--".toList <+: s := by
  match s, h with
  | [], h =>
    obtain ⟨r, hr⟩ := h
    injection hr with e
    exact absurd e (by decide)
  | [a], h =>
    obtain ⟨r, hr⟩ := h
    injection hr with _ hr
    injection hr with e
    exact absurd e (by decide)
  | a :: b :: s, h =>
    obtain ⟨r, hr⟩ := h
    injection hr with e1 hr
    injection hr with e2 hr
    subst e1 e2
    exact ⟨s, rfl⟩

theorem short_iff {v : Str} : "-h".toList <+: v ↔ ∃ r, v = '-' :: 'h' :: r :=
  ⟨fun ⟨r, h⟩ => ⟨r, h.symm⟩, fun ⟨r, h⟩ => ⟨r, h.symm⟩⟩

/-- Nothing that `argparse` takes for an option. -/
theorem optionTuples_nil {opts : List Opt} (hn : opts.Nodup) (hs : .shortHelp ∈ opts) {v : Str} (hh : v.head? = some '-') (hd : v ≠ ['-']) :
    optionTuples opts v = [] ↔ ¬ "-h".toList <+: v ∧
      ∀ o ∈ opts, ∀ s, "--".toList <+: s → s <+: o.name → v ≠ s ∧ ∀ w, v ≠ s ++ '=' :: w := by
  rcases dash_cases hh with h | hl | ⟨c, r, hc, rfl⟩
  · exact absurd h hd
  · rw [optionTuples_long hl, List.map_eq_nil_iff, List.filter_eq_nil_iff]
    constructor
    · intro h
      refine ⟨?_, ?_⟩
      · intro hc
        obtain ⟨r, rfl⟩ := short_iff.1 hc
        obtain ⟨r', hr⟩ := hl
        injection hr with _ hr
        injection hr with e
        exact absurd e (by decide)
      · intro o ho s h1 h2
        have hq : '=' ∉ s := fun hc => o.name_eq (h2.subset hc)
        refine ⟨?_, ?_⟩
        · rintro rfl
          refine h o ho ?_
          rw [splitEq_plain hq]
          exact List.isPrefixOf_iff_prefix.2 h2
        · rintro w rfl
          refine h o ho ?_
          rw [splitEq_joined hq]
          exact List.isPrefixOf_iff_prefix.2 h2
    · rintro ⟨_, h⟩ o ho hp
      replace hp := List.isPrefixOf_iff_prefix.1 hp
      rcases splitEq_cases v with ⟨_, hq⟩ | ⟨s, w, _, rfl, hq⟩
      · rw [hq] at hp
        exact (h o ho v hl hp).1 rfl
      · rw [hq] at hp
        exact (h o ho s (long_before_eq hl) hp).2 w rfl
  · rw [optionTuples_short hn hs hc]
    constructor
    · intro h
      have hne : c ≠ 'h' := by
        rintro rfl
        rw [if_pos rfl] at h
        cases h
      refine ⟨?_, ?_⟩
      · intro hc'
        obtain ⟨r', hr⟩ := short_iff.1 hc'
        injection hr with _ hr
        injection hr with e
        exact hne e
      · intro o ho s h1 h2
        obtain ⟨t, rfl⟩ := h1
        refine ⟨?_, ?_⟩
        · intro e
          injection e with _ e
          injection e with e
          exact hc e
        · intro w e
          injection e with _ e
          injection e with e
          exact hc e
    · rintro ⟨h, _⟩
      rw [if_neg]
      rintro rfl
      exact h (short_iff.2 ⟨r, rfl⟩)

/-- What `argparse` takes for a value. -/
theorem classify_value {opts : List Opt} (hn : opts.Nodup) (hs : .shortHelp ∈ opts) (v : Str) :
    classifyArg opts v = .value ↔ FreeWord opts v := by
  unfold FreeWord
  by_cases hh : v.head? = some '-'
  swap
  · rw [classifyArg, if_pos hh]
    exact ⟨fun _ => .inl hh, fun _ => rfl⟩
  by_cases hd : v = ['-']
  · subst hd
    refine ⟨fun _ => .inr (.inl rfl), fun _ => ?_⟩
    rw [classifyArg, if_neg (by simp)]
    have : opts.find? (fun o => o.name = ['-']) = none := by
      rw [List.find?_eq_none]
      intro o _
      cases o <;> decide
    rw [this]
    simp
  have key := optionTuples_nil hn hs hh hd
  have hnh : ¬ v.head? ≠ some '-' := not_not.2 hh
  rw [classifyArg, if_neg hnh]
  constructor
  · intro h
    split at h
    · cases h
    rw [if_neg hd] at h
    split at h
    · cases h
    · split at h
      · cases h
      · cases h
      · rename_i ht
        refine .inr (.inr ⟨?_, key.1 ht⟩)
        by_cases hneg : looksNegative v = true
        · exact .inl ((looksNegative_iff v).1 hneg)
        · rw [if_neg hneg] at h
          by_cases hsp : ' ' ∈ v
          · exact .inr hsp
          · rw [if_neg hsp] at h
            cases h
  · rintro (h | h | ⟨h1, h2⟩)
    · exact absurd hh h
    · exact absurd h hd
    · have hf : opts.find? (fun o => o.name = v) = none := by
        cases hf : opts.find? (fun o => o.name = v) with
        | none => rfl
        | some o =>
          obtain ⟨ho, rfl⟩ := find_name_some hf
          by_cases hsh : o = .shortHelp
          · subst hsh
            exact absurd (List.prefix_refl _) h2.1
          · exact absurd rfl (h2.2 o ho _ (o.name_long hsh) (List.prefix_refl _)).1
      have hb : ((splitEq v).2.bind fun w => (opts.find? fun o => o.name = (splitEq v).1).map fun o => (o, w)) = none := by
        rcases splitEq_cases v with ⟨_, hq⟩ | ⟨s, w, _, rfl, hq⟩
        · rw [hq]; rfl
        · rw [hq, Option.bind_some, Option.map_eq_none_iff]
          cases hf : opts.find? (fun o => o.name = s) with
          | none => rfl
          | some o =>
            obtain ⟨ho, rfl⟩ := find_name_some hf
            by_cases hsh : o = .shortHelp
            · subst hsh
              exact absurd (List.prefix_append _ _) h2.1
            · exact absurd rfl ((h2.2 o ho _ (o.name_long hsh) (List.prefix_refl _)).2 w)
      rw [hf]
      simp only [if_neg hd, hb, key.2 h2]
      rcases h1 with h1 | h1
      · rw [if_pos ((looksNegative_iff v).2 h1)]
      · rw [if_pos h1]
        split <;> rfl

/-- One option after the other. -/
def CliArgs.apply (ns : CliArgs) (x : Opt × Str) : CliArgs :=
  if x.1 = .deleteAfter then { ns with deleteAfter := true } else ns.store x.1 x.2

theorem spells_cons {opts : List Opt} {x : Opt × Str} {items : List (Opt × Str)} {p argv : List Str} (h : SpelledOpt opts x p)
    (h' : Spells opts items argv) : Spells opts (x :: items) (p ++ argv) := by
  obtain ⟨ps, h1, rfl⟩ := h'
  exact ⟨p :: ps, .cons h h1, rfl⟩

theorem not_dashes {opts : List Opt} {s : Str} {o : Opt} (hs : .settings ∈ opts) (hm : .method ∈ opts) (h : NamesOpt opts s o) :
    s ≠ "--".toList := by
  rintro rfl
  rcases h.2 with h | ⟨_, _, h⟩
  · revert h
    cases o <;> decide
  · have e1 := h _ hs (by decide)
    have e2 := h _ hm (by decide)
    exact absurd (e1.trans e2.symm) (by decide)

theorem classify_dashes {opts : List Opt} (hn : opts.Nodup) (hh : .shortHelp ∈ opts) (hs : .settings ∈ opts) : ¬ FreeWord opts "--".toList := by
  rintro (h | h | ⟨_, _, h⟩)
  · exact absurd h (by decide)
  · exact absurd h (by decide)
  · exact (h _ hs _ (List.prefix_refl _) (by decide)).1 rfl

/-- The parser accepts what is spelled in this way. -/
theorem parseArgs_spelled {opts : List Opt} (hn : opts.Nodup) (hh : .shortHelp ∈ opts) (hs : .settings ∈ opts) (hm : .method ∈ opts)
    {items : List (Opt × Str)} {pieces : List (List Str)} (h : List.Forall₂ (SpelledOpt opts) items pieces) (ns : CliArgs) :
    parseArgs opts ns pieces.flatten = some (items.foldl CliArgs.apply ns) := by
  induction h generalizing ns with
  | nil => rfl
  | cons hx _ ih =>
    rename_i x p items pieces _
    have step : ∀ (a : Str) (ns' : CliArgs) (rest : List Str), a ≠ "--".toList →
        (match classifyArg opts a with
          | .opt o (some v) => o.takesValue = true ∧ ns' = ns.store o v
          | .opt .deleteAfter none => ns' = { ns with deleteAfter := true }
          | _ => False) → parseArgs opts ns (a :: rest) = parseArgs opts ns' rest := by
      intro a ns' rest ha hc
      cases rest with
      | nil =>
        simp only [parseArgs]
        rw [if_neg ha]
        split at hc
        · rename_i o v hcl
          rw [hcl]
          simp only [hc.1, if_true, hc.2]
        · rename_i hcl
          rw [hcl]
          simp only [hc]
        · exact hc.elim
      | cons b rest =>
        rw [parseArgs, if_neg ha]
        split at hc
        · rename_i o v hcl
          rw [hcl]
          simp only [hc.1, if_true, hc.2]
        · rename_i hcl
          rw [hcl]
          simp only [hc]
        · exact hc.elim
    rw [List.flatten_cons, List.foldl_cons]
    cases hx with
    | flag h =>
      rw [List.singleton_append, step _ { ns with deleteAfter := true } _ (not_dashes hs hm h) (by rw [classify_name hn h]), ih]
      rfl
    | joined ho h =>
      rename_i o s v
      have hne : s ++ '=' :: v ≠ "--".toList := fun hc => absurd (hc ▸ List.mem_append_right s (List.mem_cons_self (a := '=') (l := v))) (by decide)
      rw [List.singleton_append, step _ (ns.store o v) _ hne (by rw [classify_joined hn h]; exact ⟨ho, rfl⟩), ih]
      congr 1
      rw [CliArgs.apply, if_neg]
      rintro rfl
      cases ho
    | apart ho h hv =>
      rename_i o s v
      have hv' : v ≠ "--".toList := fun hc => classify_dashes hn hh hs (hc ▸ hv)
      change parseArgs opts ns (s :: v :: pieces.flatten) = _
      rw [parseArgs, if_neg (not_dashes hs hm h), classify_name hn h]
      have hda : o ≠ .deleteAfter := by rintro rfl; cases ho
      have e : CliArgs.apply ns (o, v) = ns.store o v := by rw [CliArgs.apply, if_neg hda]
      rw [e]
      cases o <;> first
        | exact absurd ho (by decide)
        | exact absurd rfl hda
        | (simp only [if_neg hv', (classify_value hn hh v).2 hv, if_true, Opt.takesValue]
           exact ih _)

/-- The parser accepts nothing else. -/
theorem parseArgs_spells {opts : List Opt} (hn : opts.Nodup) (hh : .shortHelp ∈ opts)
    (argv : List Str) (ns ns' : CliArgs) (h : parseArgs opts ns argv = some ns') :
    ∃ items, Spells opts items argv ∧ ns' = items.foldl CliArgs.apply ns := by
  have hval : ∀ {arg o v}, classifyArg opts arg = .opt o (some v) → o.takesValue = true → SpelledOpt opts (o, v) [arg] := by
    intro arg o v hc ho
    rcases classify_opt hn hh hc with ⟨h, _⟩ | ⟨rfl, _⟩ | ⟨s, w, h1, h2, rfl⟩
    · cases h
    · cases ho
    · injection h1 with h1
      subst h1
      exact .joined ho h2
  have hnam : ∀ {arg o}, classifyArg opts arg = .opt o none → NamesOpt opts arg o := by
    intro arg o hc
    rcases classify_opt hn hh hc with ⟨_, h⟩ | ⟨_, h⟩ | ⟨s, w, h1, _⟩
    · exact h
    · exact absurd rfl h
    · cases h1
  have hst : ∀ (ns : CliArgs) {o : Opt} (v : Str), o.takesValue = true → CliArgs.apply ns (o, v) = ns.store o v := by
    intro ns o v ho
    rw [CliArgs.apply, if_neg]
    rintro rfl
    cases ho
  obtain ⟨n, hlen⟩ : ∃ n, argv.length ≤ n := ⟨_, Nat.le_refl _⟩
  induction n generalizing argv ns with
  | zero =>
    rw [List.length_eq_zero_iff.1 (Nat.le_zero.1 hlen)] at h ⊢
    rw [parseArgs] at h
    injection h with h
    exact ⟨[], ⟨[], .nil, rfl⟩, h.symm⟩
  | succ n ih =>
    match argv, h, hlen with
    | [], h, _ =>
      rw [parseArgs] at h
      injection h with h
      exact ⟨[], ⟨[], .nil, rfl⟩, h.symm⟩
    | [arg], h, _ =>
      rw [parseArgs] at h
      split at h
      · cases h
      split at h
      · rename_i o v hc
        split at h
        · rename_i ho
          injection h with h
          exact ⟨[(o, v)], spells_cons (hval hc ho) ⟨[], .nil, rfl⟩, by rw [← h, List.foldl_cons, hst _ _ ho]; rfl⟩
        · cases h
      · rename_i hc
        injection h with h
        exact ⟨[(.deleteAfter, [])], spells_cons (.flag (hnam hc)) ⟨[], .nil, rfl⟩, h.symm⟩
      · cases h
    | arg :: next :: rest, h, hlen =>
      rw [parseArgs] at h
      split at h
      · cases h
      split at h
      · rename_i o v hc
        split at h
        · rename_i ho
          obtain ⟨items, h1, h2⟩ := ih _ _ h (by simpa using hlen)
          exact ⟨(o, v) :: items, spells_cons (hval hc ho) h1, by rw [h2, List.foldl_cons, hst _ _ ho]⟩
        · cases h
      · rename_i hc
        obtain ⟨items, h1, h2⟩ := ih _ _ h (by simpa using hlen)
        exact ⟨(.deleteAfter, []) :: items, spells_cons (.flag (hnam hc)) h1, h2⟩
      · rename_i o _ hc
        split at h
        · rename_i ho
          split at h
          · cases h
          split at h
          · rename_i hv
            obtain ⟨items, h1, h2⟩ := ih _ _ h (by simp only [List.length_cons] at hlen ⊢; omega)
            exact ⟨(o, next) :: items, spells_cons (.apart ho (hnam hc) ((classify_value hn hh next).1 hv)) h1,
              by rw [h2, List.foldl_cons, hst _ _ ho]⟩
          · cases h
        · cases h
      · cases h

theorem lastValue_snoc (o : Opt) (items : List (Opt × Str)) (x : Opt × Str) :
    lastValue o (items ++ [x]) = if x.1 = o then some x.2 else lastValue o items := by
  unfold lastValue
  rw [List.filter_append]
  by_cases h : x.1 = o
  · simp [h]
  · simp [h]

/-- What was read is what is meant. -/
theorem applied_meant (items : List (Opt × Str)) : items.foldl CliArgs.apply {} = meant items := by
  induction items using List.reverseRecOn with
  | nil => rfl
  | append_singleton items x ih =>
    obtain ⟨o, v⟩ := x
    rw [List.foldl_append, List.foldl_cons, List.foldl_nil, ih]
    unfold meant
    simp only [lastValue_snoc, List.any_append, List.any_cons, List.any_nil, Bool.or_false]
    cases o <;> simp [CliArgs.apply, CliArgs.store]

end Verif
