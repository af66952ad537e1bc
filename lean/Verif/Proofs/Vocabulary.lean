import Verif.Spec.Vocabulary
import Verif.Proofs.Tagger
import Verif.Props.PosLabels

/-! # What interpreters can say -/

namespace Verif

theorem pyGet_mem {α : Type} {l : List α} {i : Int} {x : α} (h : pyGet l i = .ok x) : x ∈ l := by
  unfold pyGet at h
  simp only at h
  generalize (if i < 0 then i + (l.length : Int) else i) = j at h
  split at h
  · cases h
  · split at h
    · rename_i y hy
      injection h with h
      subst h
      exact List.mem_of_getElem? hy
    · cases h

/-! ### Tags -/

theorem decode_from {t : PosTable} {ids : List Int} {q : Option Pos} (h : t.decode ids = .ok q) :
    ∃ parts, t.splitter.combine parts = .ok q ∧
      ∀ (j : Nat) y, parts[j]? = some y → ∃ l, t.id2parts[j]? = some l ∧ y ∈ l := by
  unfold PosTable.decode at h
  split at h
  · cases h
  · rename_i parts hp
    refine ⟨parts, h, ?_⟩
    rw [mapM'_ok_iff, forall₂_getElem?] at hp
    obtain ⟨hl, hp⟩ := hp
    intro j y hy
    have hj := (List.getElem?_eq_some_iff.1 hy).1
    rw [← hl, List.length_zipIdx] at hj
    have := hp j (ids[j], j) y (by rw [List.getElem?_zipIdx, List.getElem?_eq_getElem hj]; simp) hy
    unfold decodePart at this
    split at this
    · cases this
    · rename_i l hl2
      exact ⟨l, hl2, pyGet_mem this⟩

theorem granFeats_mem {keys : List Str} {ps : List TagPart} {l : List (Str × Str)} (h : granFeats keys ps = .ok l) :
    ∀ e ∈ l, ∃ j : Nat, keys[j]? = some e.1 ∧ ps[j]? = some (.str (some e.2)) := by
  induction ps generalizing keys l with
  | nil =>
    simp only [granFeats, Except.ok.injEq] at h
    subst h
    simp
  | cons p ps ih =>
    cases p with
    | str o =>
      cases o with
      | none =>
        simp only [granFeats] at h
        intro e he
        obtain ⟨j, h1, h2⟩ := ih h e he
        refine ⟨j + 1, ?_, by simpa using h2⟩
        cases keys with
        | nil => simp at h1
        | cons k keys => simpa using h1
      | some v =>
        cases keys with
        | nil => simp [granFeats] at h
        | cons k keys =>
          simp only [granFeats] at h
          split at h
          · cases h
          · rename_i l' hl'
            injection h with h
            subst h
            intro e he
            rcases List.mem_cons.1 he with rfl | he
            · exact ⟨0, rfl, rfl⟩
            · obtain ⟨j, h1, h2⟩ := ih hl' e he
              exact ⟨j + 1, by simpa using h1, by simpa using h2⟩
    | _ => simp [granFeats] at h

theorem sameMap_repr (d : Dict Str Str) : SameMap d (Dict.ofList (dict2repr d)) := by
  have := dict2repr_ofList d
  intro k
  exact ((Dict.pyEq_iff.1 this) k).symm

theorem combine_xf {parts : List TagPart} {q : Option Pos} (h : Splitter.xf.combine parts = .ok q) :
    ∃ u x l rest, parts = .str u :: .xf x l :: rest ∧ q = some ⟨u, x, Dict.ofList l⟩ := by
  generalize he : Splitter.xf = sp at h
  unfold Splitter.combine at h
  split at h <;> cases he <;> first | (cases h; done) | skip
  injection h with h
  exact ⟨_, _, _, _, rfl, h.symm⟩

theorem combine_uxf {parts : List TagPart} {q : Option Pos} (h : Splitter.uxf.combine parts = .ok q) :
    ∃ u x l rest, parts = .str u :: .str x :: .feats l :: rest ∧ q = some ⟨u, x, Dict.ofList l⟩ := by
  generalize he : Splitter.uxf = sp at h
  unfold Splitter.combine at h
  split at h <;> cases he <;> first | (cases h; done) | skip
  injection h with h
  exact ⟨_, _, _, _, rfl, h.symm⟩

theorem combine_gran {keys : List Str} {parts : List TagPart} {q : Option Pos}
    (h : (Splitter.gran keys).combine parts = .ok q) :
    ∃ u x ps l, parts = .str u :: .str x :: ps ∧ granFeats keys ps = .ok l ∧ q = some ⟨u, x, Dict.ofList l⟩ := by
  generalize he : Splitter.gran keys = sp at h
  unfold Splitter.combine at h
  split at h <;> cases he <;> first | (cases h; done) | skip
  rename_i u x ps
  split at h
  · cases h
  · rename_i l hl
    injection h with h
    exact ⟨u, x, ps, l, rfl, hl, h.symm⟩

/-- A tag that is decoded is made of the tags of the training data. -/
theorem decode_tagOf {s : Splitting} {labels : List (Option Pos)} {t : PosTable} (h : buildPosTable s labels = .ok t)
    (hno : s = .gran → NoTagFeatures labels) {ids : List Int} {q : Option Pos} (hd : t.decode ids = .ok q) :
    TagOf labels s q := by
  obtain ⟨hsp, keys, ht⟩ := buildPosTable_spec h
  have hn : NoClash t.splitter := (makeSplitter_spec hsp).1 (fun hg q hq => hno hg q (firsts_mem hq))
  obtain ⟨parts, hc, hparts⟩ := decode_from hd
  have hfrom : ∀ (j : Nat) y, parts[j]? = some y → ∃ p ∈ labels, ∃ ps, t.splitter.split p = .ok ps ∧
      ∃ k, ps.keys[j]? = some k ∧ ps.get? k = some y := by
    intro j y hy
    obtain ⟨l, hl, hyl⟩ := hparts j y hy
    have hj : j < keys.length := by rw [← ht.length]; exact (List.getElem?_eq_some_iff.1 hl).1
    have hk := List.getElem?_eq_getElem hj
    obtain ⟨p, hp, ps, h1, h2⟩ := ht.from_labels j _ l hk hl y hyl
    exact ⟨p, firsts_mem hp, ps, h1, _, by rw [ht.keys_eq p ps h1]; exact hk, h2⟩
  -- the part at position j of the entries
  have hentry : ∀ (j : Nat) y, parts[j]? = some y → ∃ p ∈ labels, ∃ ps, t.splitter.split p = .ok ps ∧
      ∃ k, ps.entries[j]? = some (k, y) := by
    intro j y hy
    obtain ⟨p, hp, ps, h1, k, h2, h3⟩ := hfrom j y hy
    refine ⟨p, hp, ps, h1, k, ?_⟩
    rw [Dict.keys, List.getElem?_map] at h2
    obtain ⟨e, he, rfl⟩ := Option.map_eq_some_iff.1 h2
    have := Dict.get?_mem.2 (List.mem_of_getElem? he)
    rw [this] at h3
    injection h3 with h3
    rw [he, ← h3]
  cases s with
  | joint =>
    simp only [makeSplitter, Except.ok.injEq] at hsp
    rw [← hsp] at hc hentry
    match parts, hc with
    | .pos p :: _, hc =>
      simp only [Splitter.combine, Except.ok.injEq] at hc
      subst hc
      obtain ⟨p', hp, ps, h1, k, h2⟩ := hentry 0 _ rfl
      simp only [Splitter.split, Except.ok.injEq] at h1
      subst h1
      rw [Dict.ofList_entries _ (by simp)] at h2
      simp only [List.getElem?_cons_zero, Option.some.injEq, Prod.mk.injEq, TagPart.pos.injEq] at h2
      rw [← h2.2]
      exact hp
  | xf =>
    simp only [makeSplitter, Except.ok.injEq] at hsp
    rw [← hsp] at hc hentry
    have hent : ∀ (j : Nat) y, parts[j]? = some y → ∃ p, some p ∈ labels ∧ ∃ k,
        [(sUPOS, TagPart.str p.upos), (sXPOSFEATS, .xf p.xpos (dict2repr p.feats))][j]? = some (k, y) := by
      intro j y hy
      obtain ⟨p, hp, ps, h1, k, h2⟩ := hentry j y hy
      cases p with
      | none => simp [Splitter.split] at h1
      | some p =>
        simp only [Splitter.split, Except.ok.injEq] at h1
        subst h1
        rw [Dict.ofList_entries _ (by simp [sUPOS, sXPOSFEATS])] at h2
        exact ⟨p, hp, k, h2⟩
    obtain ⟨u, x, l, rest, rfl, rfl⟩ := combine_xf hc
    · obtain ⟨p, hp, k, h1⟩ := hent 0 _ rfl
      obtain ⟨p', hp', k', h2⟩ := hent 1 _ rfl
      simp only [List.getElem?_cons_zero, List.getElem?_cons_succ, Option.some.injEq, Prod.mk.injEq, TagPart.str.injEq,
        TagPart.xf.injEq] at h1 h2
      refine ⟨⟨p, hp, h1.2⟩, p', hp', h2.2.1, ?_⟩
      rw [← h2.2.2]
      exact sameMap_repr _
  | uxf =>
    simp only [makeSplitter, Except.ok.injEq] at hsp
    rw [← hsp] at hc hentry
    have hent : ∀ (j : Nat) y, parts[j]? = some y → ∃ p, some p ∈ labels ∧ ∃ k,
        [(sUPOS, TagPart.str p.upos), (sXPOS, .str p.xpos), (sFEATS, .feats (dict2repr p.feats))][j]? = some (k, y) := by
      intro j y hy
      obtain ⟨p, hp, ps, h1, k, h2⟩ := hentry j y hy
      cases p with
      | none => simp [Splitter.split] at h1
      | some p =>
        simp only [Splitter.split, Except.ok.injEq] at h1
        subst h1
        rw [Dict.ofList_entries _ (by simp [sUPOS, sXPOS, sFEATS])] at h2
        exact ⟨p, hp, k, h2⟩
    obtain ⟨u, x, l, rest, rfl, rfl⟩ := combine_uxf hc
    · obtain ⟨p, hp, k, h1⟩ := hent 0 _ rfl
      obtain ⟨p', hp', k', h2⟩ := hent 1 _ rfl
      obtain ⟨p'', hp'', k'', h3⟩ := hent 2 _ rfl
      simp only [List.getElem?_cons_zero, List.getElem?_cons_succ, Option.some.injEq, Prod.mk.injEq, TagPart.str.injEq,
        TagPart.feats.injEq] at h1 h2 h3
      refine ⟨⟨p, hp, h1.2⟩, ⟨p', hp', h2.2⟩, p'', hp'', ?_⟩
      rw [← h3.2]
      exact sameMap_repr _
  | gran =>
    obtain ⟨gk, hgk⟩ : ∃ gk, t.splitter = .gran gk := by
      simp only [makeSplitter] at hsp
      split at hsp
      · cases hsp
      · injection hsp with hsp
        exact ⟨_, hsp.symm⟩
    rw [hgk] at hc hentry hn
    have hent : ∀ (j : Nat) y, parts[j]? = some y → ∃ p, some p ∈ labels ∧ ∃ k,
        ((sUPOS, TagPart.str p.upos) :: (sXPOS, .str p.xpos) ::
          gk.map (fun k => (k, TagPart.str (p.feats.get? k))))[j]? = some (k, y) := by
      intro j y hy
      obtain ⟨p, hp, ps, h1, k, h2⟩ := hentry j y hy
      cases p with
      | none => simp [Splitter.split] at h1
      | some p => exact ⟨p, hp, k, by rw [← gran_split_entries hn p h1]; exact h2⟩
    obtain ⟨u, x, ps, l, rfl, hl, rfl⟩ := combine_gran hc
    · · obtain ⟨p, hp, k, h1⟩ := hent 0 _ rfl
        obtain ⟨p', hp', k', h2⟩ := hent 1 _ rfl
        simp only [List.getElem?_cons_zero, List.getElem?_cons_succ, Option.some.injEq, Prod.mk.injEq, TagPart.str.injEq]
          at h1 h2
        refine ⟨⟨p, hp, h1.2⟩, ⟨p', hp', h2.2⟩, fun k v hkv => ?_⟩
        obtain ⟨j, g1, g2⟩ := granFeats_mem hl _ (ofList_mem_of_get? _ _ _ hkv)
        obtain ⟨p'', hp'', k'', h3⟩ := hent (j + 2) _ g2
        simp only [List.getElem?_cons_succ, List.getElem?_map, g1, Option.map_some, Option.some.injEq, Prod.mk.injEq,
          TagPart.str.injEq] at h3
        exact ⟨p'', hp'', h3.2⟩

/-! ### Lemmas -/

theorem commonStart_heads (w l : Str) (c : Char) (h : (w.drop (commonStart w l)).head? = some c) :
    (l.drop (commonStart w l)).head? ≠ some c := by
  induction w generalizing l with
  | nil => simp [commonStart] at h
  | cons a w ih =>
    cases l with
    | nil => simp
    | cons b l =>
      by_cases hab : a = b
      · simp only [commonStart, hab, if_true, List.drop_succ_cons] at h ⊢
        exact ih l h
      · simp only [commonStart, if_neg hab, List.drop_zero, List.head?_cons, Option.some.injEq] at h ⊢
        intro hb
        exact hab (h.trans (Option.some.inj hb).symm)

theorem sameEnding_of {word lemma' w₀ l₀ : Str} {r : LemmaRule} (hr : r = LemmaRule.getRule w₀ l₀)
    (h : r.transform word = .ok lemma') : SameEnding word lemma' w₀ l₀ := by
  subst hr
  by_cases hs : (LemmaRule.getRule w₀ l₀).wordSuffix <:+ word
  · obtain ⟨stem, rfl⟩ := hs
    have : (LemmaRule.getRule w₀ l₀).transform (stem ++ (LemmaRule.getRule w₀ l₀).wordSuffix) =
        .ok (stem ++ (LemmaRule.getRule w₀ l₀).lemmaSuffix) := by
      simp [LemmaRule.transform, LemmaRule.isApplicable, endsWith]
    rw [this] at h
    injection h with h
    subst h
    refine ⟨stem, w₀.take (commonStart w₀ l₀), _, _, rfl, rfl, (List.take_append_drop ..).symm, ?_, ?_⟩
    · rw [(commonStart_spec w₀ l₀).1]
      exact (List.take_append_drop ..).symm
    · exact fun c hc => commonStart_heads w₀ l₀ c hc
  · have : (LemmaRule.getRule w₀ l₀).isApplicable word = false := by
      rw [LemmaRule.isApplicable, endsWith, Bool.eq_false_iff]
      exact fun h => hs (List.isSuffixOf_iff_suffix.1 h)
    simp [LemmaRule.transform, this] at h

theorem decodeChars_parts {voc : Dict Int Str} {ids : List Int} {l : Str} (h : decodeChars voc ids = .ok l) :
    ∃ parts : List Str, l = parts.flatten ∧ ∀ c ∈ parts, ∃ i, voc.get? i = some c := by
  induction ids generalizing l with
  | nil =>
    simp only [decodeChars, Except.ok.injEq] at h
    exact ⟨[], h.symm, by simp⟩
  | cons i ids ih =>
    simp only [decodeChars] at h
    split at h
    · injection h with h
      exact ⟨[], h.symm, by simp⟩
    · split at h
      · exact ih h
      · split at h
        · cases h
        · rename_i c hc
          split at h
          · cases h
          · rename_i s hs
            injection h with h
            obtain ⟨parts, rfl, hp⟩ := ih hs
            refine ⟨c :: parts, h.symm, fun x hx => ?_⟩
            rcases List.mem_cons.1 hx with rfl | hx
            · refine ⟨i, ?_⟩
              unfold Dict.getItem at hc
              split at hc
              · rename_i v hv
                injection hc with hc
                rw [hv, hc]
              · cases hc
            · exact hp x hx

theorem invert_vocabulary {threshold : Int} {xs : List Str} {i : Int} {c : Str}
    (h : (invert (vocabulary threshold 4 xs)).get? i = some c) : c ∈ xs := by
  have := ofList_mem_of_get? _ _ _ h
  obtain ⟨e, he, h2⟩ := List.mem_map.1 this
  injection h2 with h2 h3
  subst h2 h3
  exact ((vocabulary_isSome ..).1 ⟨_, Dict.get?_mem.2 he⟩).1

/-! ### One word -/

/-- Everything the interpreter says is what the provider allows. -/
structure SaysAs (lower : Str → Str) (dataset : List Document) (w : WordInterp) (p : Provider) : Prop where
  tags : w.tagsPos = true ↔ p.tags
  lemmas : w.tagsPos = false ↔ p.lemmas
  pos : p.clear dataset → ∀ text ids q, w.value lower text ids = .ok (.inl q) → p.tagFrom dataset q
  lemma' : ∀ text ids l, w.value lower text ids = .ok (.inr l) → p.lemmaFrom lower dataset text l
  kind : ∀ text ids v, w.value lower text ids = .ok v → (v.isLeft = true ↔ w.tagsPos = true)

theorem says_of_interp {lower : Str → Str} {dataset : List Document} {p : Provider} {s : LeafSpec} {w : WordInterp}
    (hs : p.labelSpec = some s) (h : s.interp lower dataset = .ok (.word w)) : SaysAs lower dataset w p := by
  cases p with
  | posDict n sp =>
    injection hs with hs
    subst hs
    simp only [LeafSpec.interp] at h
    split at h
    · cases h
    · rename_i t ht
      simp only [Except.ok.injEq, Interp.word.injEq] at h
      subst h
      refine ⟨by simp [WordInterp.tagsPos, Provider.tags], by simp [WordInterp.tagsPos, Provider.lemmas], ?_, ?_, ?_⟩
      · intro hc text ids q hq
        simp only [WordInterp.value] at hq
        split at hq
        · cases hq
        · rename_i q' hq'
          simp only [Except.ok.injEq, Sum.inl.injEq] at hq
          subst hq
          exact decode_tagOf ht hc hq'
      · intro text ids l hl
        simp only [WordInterp.value] at hl
        split at hl <;> simp at hl
      · intro text ids v hv
        simp only [WordInterp.value] at hv
        split at hv
        · cases hv
        · injection hv with hv
          subst hv
          simp [WordInterp.tagsPos]
  | lemmaDict n =>
    injection hs with hs
    subst hs
    simp only [LeafSpec.interp] at h
    split at h
    · cases h
    · rename_i t ht
      simp only [Except.ok.injEq, Interp.word.injEq] at h
      subst h
      have hv : ∀ text ids v, (WordInterp.lemmaDict n t).value lower text ids = .ok v → ∃ l ∈ t, v = .inr l := by
        intro text ids v hv
        simp only [WordInterp.value] at hv
        split at hv
        · cases hv
        · split at hv
          · cases hv
          · rename_i l hl
            injection hv with hv
            exact ⟨l, pyGet_mem hl, hv.symm⟩
      refine ⟨by simp [WordInterp.tagsPos, Provider.tags], by simp [WordInterp.tagsPos, Provider.lemmas], ?_, ?_, ?_⟩
      · intro _ text ids q hq
        obtain ⟨l, _, h⟩ := hv _ _ _ hq
        cases h
      · intro text ids l hl
        obtain ⟨l', h1, h2⟩ := hv _ _ _ hl
        injection h2 with h2
        subst h2
        obtain ⟨x, hx, e⟩ := List.mem_map.1 ((id2obj_spec optStrEq_rel ht).subset _ h1)
        exact ⟨x, hx, e⟩
      · intro text ids v h
        obtain ⟨l', h1, rfl⟩ := hv _ _ _ h
        simp [WordInterp.tagsPos]
  | lemmaRules f n th =>
    injection hs with hs
    subst hs
    simp only [LeafSpec.interp] at h
    split at h
    · cases h
    · rename_i t ht
      simp only [Except.ok.injEq, Interp.word.injEq] at h
      subst h
      have hv : ∀ text ids v, (WordInterp.lemmaRule n t).value lower text ids = .ok v → ∃ l, v = .inr (some l) ∧
          (l = lower text ∨ ∃ r ∈ t, r.transform (lower text) = .ok l) := by
        intro text ids v hv
        simp only [WordInterp.value] at hv
        split at hv
        · cases hv
        · split at hv
          · cases hv
          · rename_i r hr
            split at hv
            · split at hv
              · cases hv
              · rename_i l hl
                injection hv with hv
                exact ⟨l, hv.symm, .inr ⟨r, pyGet_mem hr, hl⟩⟩
            · injection hv with hv
              exact ⟨_, hv.symm, .inl rfl⟩
      refine ⟨by simp [WordInterp.tagsPos, Provider.tags], by simp [WordInterp.tagsPos, Provider.lemmas], ?_, ?_, ?_⟩
      · intro _ text ids q hq
        obtain ⟨l, h, _⟩ := hv _ _ _ hq
        cases h
      · intro text ids l hl
        obtain ⟨m, h2, h3⟩ := hv _ _ _ hl
        injection h2 with h2
        subst h2
        refine ⟨m, rfl, h3.imp id ?_⟩
        rintro ⟨r, hr, hm⟩
        unfold buildRules at ht
        split at ht
        · cases ht
        · rename_i rules hrules
          have h4 := (id2obj_spec ruleEq_rel ht).subset _ hr
          obtain ⟨x, hx, he⟩ := forall₂_mem_right ((mapM'_ok_iff).1 hrules) h4
          unfold suffixRule at he
          split at he
          · cases he
          · rename_i l₀ hl₀
            injection he with he
            exact ⟨x, hx, l₀, hl₀, sameEnding_of he.symm hm⟩
      · intro text ids v h
        obtain ⟨l', rfl, _⟩ := hv _ _ _ h
        simp [WordInterp.tagsPos]
  | lemmaChars n th m sg =>
    injection hs with hs
    subst hs
    simp only [LeafSpec.interp] at h
    split at h
    · cases h
    · rename_i t ht
      simp only [Except.ok.injEq, Interp.word.injEq] at h
      subst h
      have hv : ∀ text ids v, (WordInterp.lemmaChars n (invert t)).value lower text ids = .ok v → ∃ l, v = .inr (some l) ∧
          decodeChars (invert t) ids = .ok l := by
        intro text ids v hv
        simp only [WordInterp.value] at hv
        split at hv
        · cases hv
        · rename_i l hl
          injection hv with hv
          exact ⟨l, hv.symm, hl⟩
      refine ⟨by simp [WordInterp.tagsPos, Provider.tags], by simp [WordInterp.tagsPos, Provider.lemmas], ?_, ?_, ?_⟩
      · intro _ text ids q hq
        obtain ⟨l, h, _⟩ := hv _ _ _ hq
        cases h
      · intro text ids l hl
        obtain ⟨m, h2, h3⟩ := hv _ _ _ hl
        injection h2 with h2
        subst h2
        obtain ⟨parts, rfl, hp⟩ := decodeChars_parts h3
        refine ⟨parts, rfl, fun c hc => ?_⟩
        obtain ⟨i, hi⟩ := hp c hc
        unfold lemmaVocabulary at ht
        split at ht
        · cases ht
        · rename_i ss hss
          injection ht with ht
          subst ht
          obtain ⟨seg, hseg, hcs⟩ := List.mem_flatten.1 (invert_vocabulary hi)
          obtain ⟨x, hx, he⟩ := forall₂_mem_right ((mapM'_ok_iff).1 hss) hseg
          unfold lemmaSegments at he
          split at he
          · cases he
          · rename_i l₀ hl₀
            injection he with he
            subst he
            exact ⟨x, hx, l₀, hl₀, hcs⟩
      · intro text ids v h
        obtain ⟨l', rfl, _⟩ := hv _ _ _ h
        simp [WordInterp.tagsPos]
  | _ => cases hs

theorem TagOf.mono {l l' : List (Option Pos)} (h : ∀ x ∈ l, x ∈ l') {s : Splitting} {q : Option Pos} (ht : TagOf l s q) :
    TagOf l' s q := by
  cases s with
  | joint => exact h _ ht
  | xf =>
    cases q with
    | none => exact ht
    | some q => exact ⟨ht.1.imp (fun _ x => ⟨h _ x.1, x.2⟩), ht.2.imp (fun _ x => ⟨h _ x.1, x.2⟩)⟩
  | uxf =>
    cases q with
    | none => exact ht
    | some q =>
      exact ⟨ht.1.imp (fun _ x => ⟨h _ x.1, x.2⟩), ht.2.1.imp (fun _ x => ⟨h _ x.1, x.2⟩),
        ht.2.2.imp (fun _ x => ⟨h _ x.1, x.2⟩)⟩
  | gran =>
    cases q with
    | none => exact ht
    | some q =>
      exact ⟨ht.1.imp (fun _ x => ⟨h _ x.1, x.2⟩), ht.2.1.imp (fun _ x => ⟨h _ x.1, x.2⟩),
        fun k v hv => (ht.2.2 k v hv).imp (fun _ x => ⟨h _ x.1, x.2⟩)⟩

theorem datasetTokens_mono {d e : List Document} (h : ∀ g ∈ d, g ∈ e) : ∀ t ∈ datasetTokens d, t ∈ datasetTokens e := by
  intro t ht
  obtain ⟨g, hg, hgt⟩ := List.mem_flatMap.1 ht
  exact List.mem_flatMap.2 ⟨g, h g hg, hgt⟩

theorem posLabels_mono {d e : List Document} (h : ∀ g ∈ d, g ∈ e) : ∀ t ∈ posLabels d, t ∈ posLabels e := by
  intro q hq
  obtain ⟨t, ht, hqt⟩ := List.mem_map.1 hq
  exact List.mem_map.2 ⟨t, datasetTokens_mono h t ht, hqt⟩

theorem Provider.clear_mono {d e : List Document} (h : ∀ g ∈ d, g ∈ e) {p : Provider} (hc : p.clear e) : p.clear d := by
  cases p with
  | posDict n s => exact fun hs p hp => hc hs p (posLabels_mono h _ hp)
  | _ => exact hc

theorem Provider.tagFrom_mono {d e : List Document} (h : ∀ g ∈ d, g ∈ e) {p : Provider} {q : Option Pos}
    (ht : p.tagFrom d q) : p.tagFrom e q := by
  cases p with
  | posDict n s => exact TagOf.mono (posLabels_mono h) ht
  | _ => exact ht

theorem Provider.lemmaFrom_mono {lower : Str → Str} {d e : List Document} (h : ∀ g ∈ d, g ∈ e) {p : Provider} {w : Str}
    {l : Option Str} (ht : p.lemmaFrom lower d w l) : p.lemmaFrom lower e w l := by
  have hm := datasetTokens_mono h
  cases p with
  | lemmaDict n => exact ht.imp (fun t x => ⟨hm _ x.1, x.2⟩)
  | lemmaRules n a t =>
    obtain ⟨m, h1, h2⟩ := ht
    exact ⟨m, h1, h2.imp_right (fun x => x.imp (fun t y => ⟨hm _ y.1, y.2⟩))⟩
  | lemmaChars n t m s =>
    obtain ⟨ps, h1, h2⟩ := ht
    exact ⟨ps, h1, fun c hc => (h2 c hc).imp (fun t y => ⟨hm _ y.1, y.2⟩)⟩
  | _ => exact ht

theorem SaysAs.mono {lower : Str → Str} {d e : List Document} (h : ∀ g ∈ d, g ∈ e) {w : WordInterp} {p : Provider}
    (hs : SaysAs lower d w p) : SaysAs lower e w p where
  tags := hs.tags
  lemmas := hs.lemmas
  pos := fun hc text ids q hv => Provider.tagFrom_mono h (hs.pos (Provider.clear_mono h hc) text ids q hv)
  lemma' := fun text ids l hv => Provider.lemmaFrom_mono h (hs.lemma' text ids l hv)
  kind := hs.kind

theorem labelInterps_says {lower : Str → Str} {seen : Seen} {dataset : List Document} {ps : List Provider}
    (hin : ∀ s ∈ leafSpecs ps, ∀ g ∈ seen s, g ∈ dataset) {ws : List WordInterp}
    (h : LabelInterps lower seen ps ws) : ∀ w ∈ ws, ∃ p ∈ ps, SaysAs lower dataset w p := by
  obtain ⟨ss, h1, h2⟩ := h
  intro w hw
  obtain ⟨s, hs, he⟩ := forall₂_mem_right h2 hw
  have hl := h1.mem_iff.1 hs
  obtain ⟨p, hp, hps⟩ := List.mem_filterMap.1 hl
  exact ⟨p, hp, (says_of_interp hps he).mono (hin s (List.mem_append_right _ hl))⟩

/-- What is said about a word: by the providers that have something to say, otherwise nothing changes. -/
structure Said (lower : Str → Str) (dataset : List Document) (ps : List Provider) (word : Str) (t u : Token) : Prop where
  pos : (∃ p ∈ ps, p.tags) → (∀ p ∈ ps, p.clear dataset) → ∃ p ∈ ps, p.tagFrom dataset u.pos
  posKept : (∀ p ∈ ps, ¬ p.tags) → u.pos = t.pos
  lemma' : (∃ p ∈ ps, p.lemmas) → ∃ p ∈ ps, p.lemmaFrom lower dataset word u.lemma'
  lemmaKept : (∀ p ∈ ps, ¬ p.lemmas) → u.lemma' = t.lemma'

theorem interpret_ok {lower : Str → Str} {w : WordInterp} {t u : TextToken} {v : Features}
    (h : w.interpret lower t v = .ok u) : ∃ ids x, w.value lower t.1 ids = .ok x ∧ u = (t.1, setMorph t.2 x) := by
  unfold WordInterp.interpret at h
  split at h
  · cases h
  · split at h
    · cases h
    · rename_i ids hids
      rw [WordInterp.apply_eq] at h
      cases hv : w.value lower t.1 ids with
      | error e => rw [hv] at h; cases h
      | ok x =>
        rw [hv] at h
        injection h with h
        exact ⟨ids, x, hv, h.symm⟩

theorem composite_said {lower : Str → Str} {dataset : List Document} {ps : List Provider} (ws : List WordInterp)
    (hw : ∀ w ∈ ws, ∃ p ∈ ps, SaysAs lower dataset w p) {t u : TextToken} {v : Features}
    (h : compositeInterpret (ws.map (fun i => i.interpret lower)) t v = .ok u) :
    u.1 = t.1 ∧
    ((∃ w ∈ ws, w.tagsPos = true) → (∀ p ∈ ps, p.clear dataset) → ∃ p ∈ ps, p.tagFrom dataset u.2.pos) ∧
    ((∀ w ∈ ws, w.tagsPos = false) → u.2.pos = t.2.pos) ∧
    ((∃ w ∈ ws, w.tagsPos = false) → ∃ p ∈ ps, p.lemmaFrom lower dataset t.1 u.2.lemma') ∧
    ((∀ w ∈ ws, w.tagsPos = true) → u.2.lemma' = t.2.lemma') := by
  induction ws generalizing t with
  | nil =>
    simp only [compositeInterpret, List.map_nil, forM', Except.ok.injEq] at h
    subst h
    simp
  | cons w ws ih =>
    simp only [compositeInterpret, List.map_cons, forM'] at h ih
    cases h1 : w.interpret lower t v with
    | error e => rw [h1] at h; cases h
    | ok t1 =>
      rw [h1] at h
      obtain ⟨i1, i2, i3, i4, i5⟩ := ih (fun w hw' => hw w (by simp [hw'])) h
      obtain ⟨ids, x, hx, rfl⟩ := interpret_ok h1
      obtain ⟨p, hp, hs⟩ := hw w (by simp)
      have hk := hs.kind _ _ _ hx
      refine ⟨i1, ?_, ?_, ?_, ?_⟩
      · rintro ⟨w', hw', ht⟩ hc
        by_cases hws : ∃ w ∈ ws, w.tagsPos = true
        · exact i2 hws hc
        · rcases List.mem_cons.1 hw' with rfl | hw'
          · cases x with
            | inr l => simp [ht] at hk
            | inl q =>
              rw [i3 (fun w hw => by simpa using fun h => hws ⟨w, hw, h⟩)]
              exact ⟨p, hp, hs.pos (hc p hp) _ _ _ hx⟩
          · exact absurd ⟨w', hw', ht⟩ hws
      · intro hall
        rw [i3 (fun w hw => hall w (by simp [hw]))]
        cases x with
        | inr l => rfl
        | inl q => simp [hall w (by simp)] at hk
      · rintro ⟨w', hw', ht⟩
        by_cases hws : ∃ w ∈ ws, w.tagsPos = false
        · exact i4 hws
        · rcases List.mem_cons.1 hw' with rfl | hw'
          · cases x with
            | inl q => simp [ht] at hk
            | inr l =>
              rw [i5 (fun w hw => by simpa using fun h => hws ⟨w, hw, h⟩)]
              exact ⟨p, hp, hs.lemma' _ _ _ hx⟩
          · exact absurd ⟨w', hw', ht⟩ hws
      · intro hall
        rw [i5 (fun w hw => hall w (by simp [hw]))]
        cases x with
        | inl q => rfl
        | inr l => simp [hall w (by simp)] at hk

theorem composite_said' {lower : Str → Str} {seen : Seen} {dataset : List Document} {ps : List Provider}
    (hin : ∀ s ∈ leafSpecs ps, ∀ g ∈ seen s, g ∈ dataset) {ws : List WordInterp}
    (hw : LabelInterps lower seen ps ws) {t u : TextToken} {v : Features}
    (h : compositeInterpret (ws.map (fun i => i.interpret lower)) t v = .ok u) :
    Said lower dataset ps t.1 t.2 u.2 := by
  obtain ⟨_, h2, h3, h4, h5⟩ := composite_said ws (labelInterps_says hin hw) h
  refine ⟨fun hp => h2 (labelInterps_tags hw hp), fun hn => h3 (fun w hw' => ?_), fun hp => h4 (labelInterps_lemmas hw hp),
    fun hn => h5 (fun w hw' => ?_)⟩
  · obtain ⟨p, hp, hs⟩ := labelInterps_says hin hw w hw'
    simpa using fun h => hn p hp (hs.tags.1 h)
  · obtain ⟨p, hp, hs⟩ := labelInterps_says hin hw w hw'
    have := fun h => hn p hp (hs.lemmas.1 h)
    simpa using this

/-! ### Sentences and documents -/

theorem interpretSentence_said {lower : Str → Str} {seen : Seen} {dataset : List Document} {ps : List Provider}
    (hin : ∀ s ∈ leafSpecs ps, ∀ g ∈ seen s, g ∈ dataset) {ws : List WordInterp}
    (hw : LabelInterps lower seen ps ws) {ts us : List TextToken} {pred : Features}
    (h : interpretSentence lower (batchInterp ws) ts pred = .ok us) (k : Nat) (u : TextToken) (hu : us[k]? = some u) :
    ∃ t, ts[k]? = some t ∧ Said lower dataset ps t.1 t.2 u.2 := by
  by_cases hne : ws = []
  · subst hne
    simp only [batchInterp, if_true, interpretSentence, Interp.run] at h
    have := chainTokens_seq [ts]
    simp only [List.map_cons, List.map_nil, List.flatten_cons, List.flatten_nil, List.append_nil] at this
    rw [this] at h
    injection h with h
    subst h
    exact ⟨u, hu, composite_said' (v := Dict.empty) hin hw rfl⟩
  · simp only [batchInterp, if_neg hne] at h
    rw [interpretSentence_eq] at h
    cases hP : asSequences pred with
    | error e => rw [hP] at h; cases h
    | ok P =>
      rw [hP] at h
      simp only [tagSentence] at h
      cases hI : iterInterpret (interpretWords lower ws) [ts] P with
      | error e => rw [hI] at h; cases h
      | ok l =>
        rw [hI] at h
        injection h with h
        unfold iterInterpret at hI
        rw [mapM'_ok_iff] at hI
        cases hc : converted P with
        | nil =>
          rw [hc] at hI
          cases hI
          subst h
          simp at hu
        | cons c cs =>
          rw [hc] at hI
          simp only [List.zip_cons_cons, List.zip_nil_left] at hI
          cases hI with
          | cons h1 h2 =>
            cases h2
            simp only [List.flatten_cons, List.flatten_nil, List.append_nil] at h
            subst h
            unfold interpretWords at h1
            split at h1
            · cases h1
            · rename_i v' hv'
              unfold iterInterpret at h1
              rw [mapM'_ok_iff, forall₂_getElem?] at h1
              obtain ⟨hl, h1⟩ := h1
              have hk := (List.getElem?_eq_some_iff.1 hu).1
              rw [← hl] at hk
              have hz := List.getElem?_eq_getElem hk
              have hr := h1 k _ _ hz hu
              rw [List.getElem_zip] at hr
              have hkt : k < ts.length := by rw [List.length_zip] at hk; simp only at hk; omega
              exact ⟨_, List.getElem?_eq_getElem hkt, composite_said' hin hw hr⟩

theorem trained_said {F : Type} {lower : Str → Str} {float : Str → Res F} {zero : F} {other : TextToken}
    {seen : Seen} {dataset : List Document} {ps : List Provider}
    (hin : ∀ s ∈ leafSpecs ps, ∀ g ∈ seen s, g ∈ dataset) {net : Features → Res Features} {d e : Document} (hd : Built d)
    (h : trainedTag lower float zero other seen ps net d = .ok e) (hne : e.tokens ≠ []) :
    Built e ∧ Retagged d e ∧ List.Forall₂ (fun t u => Said lower dataset ps (tokText d.text t) t u) d.tokens e.tokens := by
  unfold trainedTag at h
  cases hi : assembleInterp lower seen ps with
  | error e => rw [hi] at h; cases h
  | ok i =>
    rw [hi] at h
    simp only at h
    obtain ⟨ws, rfl, hw⟩ := assembleInterp_ok hi
    unfold tagDocument at h
    cases hm : mapM' (predictAndInterpret lower (batchInterp ws)
        (predictSentence lower float zero other seen ps net) d) d.sentences with
    | error e => rw [hm] at h; cases h
    | ok tss =>
      rw [hm] at h
      simp only at h
      rw [mapM'_ok_iff] at hm
      have hp : List.Forall₂ PartOf (d.sentences.map (fun s => slice d.textTokens s.start s.stop)) tss := by
        rw [List.forall₂_map_left_iff]
        exact hm.imp (fun _ _ h => predictAndInterpret_part h)
      rcases fromDocument_of_parts hd hp with ⟨hl, e', he, hrel⟩ | ⟨_, _, he⟩ | ⟨_, _, he⟩
      · rw [he] at h
        injection h with h
        subst h
        have hfull : tss.flatten.length =
            (d.sentences.map (fun s => slice d.textTokens s.start s.stop)).flatten.length := by
          rw [textTokens_flatten hd.docOk, hl]
          simp [Document.textTokens]
        have hsaid : List.Forall₂ (fun t u : TextToken => Said lower dataset ps t.1 t.2 u.2) d.textTokens tss.flatten := by
          have hlen := partOf_full hp hfull
          rw [← textTokens_flatten hd.docOk]
          rw [List.forall₂_map_left_iff] at hlen
          clear hp hfull hl hrel he hne
          generalize d.sentences = ss at *
          induction hm with
          | nil => exact .nil
          | @cons s ts ss tss h1 _ ih =>
            cases hlen with
            | cons hl1 hl2 =>
              rw [List.map_cons, List.flatten_cons, List.flatten_cons]
              refine List.rel_append ?_ (ih hl2)
              unfold predictAndInterpret at h1
              split at h1
              · cases h1
              · rw [forall₂_getElem?]
                refine ⟨hl1.symm, fun k t u ht hu => ?_⟩
                obtain ⟨t', ht', hs⟩ := interpretSentence_said hin hw h1 k u hu
                rw [ht] at ht'
                injection ht' with ht'
                rw [ht']
                exact hs
        have h2 : List.Forall₂ (fun a b : Token => ∃ p l, b = { a with pos := p, lemma' := l }) d.tokens
            (tss.flatten.map Prod.snd) := by
          have hpf := partOf_flatten hp
          rw [textTokens_flatten hd.docOk] at hpf
          have h3 := hpf.2 (by rw [hl]; simp [Document.textTokens])
          rw [List.forall₂_map_right_iff]
          unfold Document.textTokens at h3
          rw [List.forall₂_map_left_iff] at h3
          exact h3.imp (fun a b hab => hab.2)
        obtain ⟨d2, e1, e2, e3⟩ := retagged_of hd.docOk h2
        rw [he] at e1
        injection e1 with e1
        subst e1
        refine ⟨fromDocument_built he, e2, ?_⟩
        unfold Document.textTokens at hsaid
        rw [List.forall₂_map_left_iff] at hsaid
        rw [forall₂_getElem?] at hsaid hrel ⊢
        refine ⟨hsaid.1.trans hrel.1, fun k t c ht hc => ?_⟩
        have hk := (List.getElem?_eq_some_iff.1 hc).1
        rw [← hrel.1] at hk
        have hu := List.getElem?_eq_getElem hk
        obtain ⟨c1, c2⟩ := hrel.2 k _ _ hu hc
        have hs := hsaid.2 k _ _ ht hu
        exact ⟨by rw [c1]; exact hs.pos, by rw [c1]; exact hs.posKept, by rw [c2]; exact hs.lemma',
          by rw [c2]; exact hs.lemmaKept⟩
      · rw [he] at h
        injection h with h
        subst h
        exact absurd rfl hne
      · rw [he] at h
        cases h

end Verif
