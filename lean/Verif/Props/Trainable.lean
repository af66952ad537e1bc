import Verif.Spec.Trainable
import Verif.Props.TrainTotal
import Verif.Props.Embeddings
import Verif.Proofs.Resave2

/-!
# What training data must contain: C140
-/

namespace Verif

section
variable {F : Type} (lower : Str → Str) (float : Str → Res F) (zero : F) (dataset : List Document)

theorem vectorFile_iff (lines : List Str) : (∃ st, readEmbeddings float lines = .ok st) ↔ VectorFile float lines := by
  have hline : ∀ (n : Int) line, (∃ w vec, LineGives float line w vec ∧ n = (vec.length : Int)) ↔ VectorLine float n line := by
    intro n line
    constructor
    · rintro ⟨w, vec, ⟨vals, h1, h2⟩, h3⟩
      exact ⟨w, vals, h1, by rw [h3, h2.length_eq], fun v hv => by
        obtain ⟨x, _, hx⟩ := forall₂_mem_left h2 hv
        exact ⟨x, hx⟩⟩
    · rintro ⟨w, vs, h1, h2, h3⟩
      obtain ⟨xs, hxs⟩ := mapM'_total (f := float) (l := vs) h3
      have := mapM'_ok_iff.1 hxs
      exact ⟨w, xs, ⟨vs, h1, this⟩, by rw [h2, this.length_eq]⟩
  rw [C70_accepts]
  refine exists_congr (fun n => ?_)
  simp only [hline]
  cases lines with
  | nil => simp [HasHeader, dataLines]
  | cons line rest =>
    simp only [HasHeader, dataLines, List.head?_cons, List.tail_cons, Option.map_some, Option.some.injEq]
    by_cases h : (splitWs line).length = 2
    · obtain ⟨w, v, hwv⟩ := List.length_eq_two.1 h
      simp only [h, if_true, forall_const]
      constructor
      · rintro ⟨⟨w', v', h1, h2⟩, h3⟩
        exact Or.inr ⟨line, w', v', rfl, h1, h2, h3⟩
      · rintro (⟨_, h2⟩ | ⟨l, w', v', rfl, h1, h2, h3⟩)
        · exact absurd hwv (h2 line w v rfl)
        · exact ⟨⟨w', v', h1, h2⟩, h3⟩
    · simp only [h, if_false, false_implies, true_and]
      constructor
      · intro h1
        refine Or.inl ⟨h1, ?_⟩
        rintro l w v rfl h2
        rw [h2] at h
        exact h rfl
      · rintro (⟨h1, _⟩ | ⟨l, w, v, rfl, h2, _⟩)
        · exact h1
        · rw [h2] at h
          exact absurd rfl h

theorem hasWords_iff : HasWords dataset ↔ datasetTokens dataset ≠ [] := by
  constructor
  · rintro ⟨d, hd, h⟩ h0
    have : d.textTokens = [] := by
      rw [datasetTokens, List.flatMap_eq_nil_iff] at h0
      exact h0 d hd
    simp [Document.textTokens] at this
    exact h this
  · intro h
    obtain ⟨t, ht⟩ := List.exists_mem_of_ne_nil _ h
    obtain ⟨d, hd, hdt⟩ := List.mem_flatMap.1 ht
    obtain ⟨x, hx, _⟩ := List.mem_map.1 hdt
    exact ⟨d, hd, List.ne_nil_of_mem hx⟩

theorem datasetTokens_forall {P : Token → Prop} :
    (∀ t ∈ datasetTokens dataset, P t.2) ↔ ∀ d ∈ dataset, ∀ t ∈ d.tokens, P t := by
  constructor
  · intro h d hd t ht
    exact h (tokText d.text t, t) (List.mem_flatMap.2 ⟨d, hd, List.mem_map.2 ⟨t, ht, rfl⟩⟩)
  · intro h t ht
    obtain ⟨d, hd, hdt⟩ := List.mem_flatMap.1 ht
    obtain ⟨x, hx, rfl⟩ := List.mem_map.1 hdt
    exact h d hd x hx

theorem posLabels_mem {q : Option Pos} : q ∈ posLabels dataset ↔ ∃ d ∈ dataset, ∃ t ∈ d.tokens, t.pos = q := by
  constructor
  · intro h
    obtain ⟨t, ht, rfl⟩ := List.mem_map.1 h
    obtain ⟨d, hd, hdt⟩ := List.mem_flatMap.1 ht
    obtain ⟨x, hx, rfl⟩ := List.mem_map.1 hdt
    exact ⟨d, hd, x, hx, rfl⟩
  · rintro ⟨d, hd, t, ht, rfl⟩
    exact List.mem_map.2 ⟨(tokText d.text t, t), List.mem_flatMap.2 ⟨d, hd, List.mem_map.2 ⟨t, ht, rfl⟩⟩, rfl⟩

theorem rules_iff (threshold : Int) : (∃ rules, buildRules lower threshold dataset = .ok rules) ↔
    HasWords dataset ∧ AllLemmatized dataset := by
  rw [hasWords_iff, AllLemmatized, ← datasetTokens_forall (P := fun t => t.lemma' ≠ none)]
  constructor
  · rintro ⟨rules, h⟩
    obtain ⟨all, h1, h2⟩ := buildRules_ok h
    refine ⟨?_, fun t ht h0 => ?_⟩
    · intro h0
      rw [h0] at h1
      cases h1
      cases h2
    · obtain ⟨r, _, hr⟩ := forall₂_mem_left (mapM'_ok_iff.1 h1) ht
      simp only [suffixRule, h0] at hr
      cases hr
  · rintro ⟨h1, h2⟩
    obtain ⟨all, hall⟩ := mapM'_total (f := suffixRule lower) (l := datasetTokens dataset) (by
      intro t ht
      cases hl : t.2.lemma' with
      | none => exact absurd hl (h2 t ht)
      | some l => exact ⟨_, suffixRule_some hl⟩)
    have hne : all ≠ [] := by
      rintro rfl
      have := (mapM'_ok_iff.1 hall).length_eq
      exact h1 (List.length_eq_zero_iff.1 this)
    obtain ⟨rules, hr⟩ := (C46_built (lt := fun a b => .ok (a.lt b)) ruleEq_rel all threshold).2.1 hne
      (fun a _ b _ => ⟨_, rfl⟩)
    exact ⟨rules, by simp only [buildRules, hall, hr]⟩

theorem lemmas_iff : (∃ table, buildLemmaTable ((datasetTokens dataset).map (fun t => t.2.lemma')) = .ok table) ↔
    HasWords dataset := by
  rw [hasWords_iff]
  constructor
  · rintro ⟨table, h⟩ h0
    rw [h0] at h
    cases h
  · intro h
    refine (C46_built optStrEq_rel _ 0).2.1 (by simpa using h) ?_
    intro a _ b _
    cases a <;> cases b <;> exact ⟨_, rfl⟩

theorem chars_iff (segment : Str → List Str) (threshold : Int) :
    (∃ voc, lemmaVocabulary segment threshold dataset = .ok voc) ↔ AllLemmatized dataset := by
  rw [AllLemmatized, ← datasetTokens_forall (P := fun t => t.lemma' ≠ none)]
  constructor
  · rintro ⟨voc, h⟩ t ht h0
    unfold lemmaVocabulary at h
    split at h
    · cases h
    · rename_i ss hss
      obtain ⟨r, _, hr⟩ := forall₂_mem_left (mapM'_ok_iff.1 hss) ht
      simp only [lemmaSegments, h0] at hr
      cases hr
  · intro h
    obtain ⟨ss, hss⟩ := mapM'_total (f := lemmaSegments segment) (l := datasetTokens dataset) (by
      intro t ht
      cases hl : t.2.lemma' with
      | none => exact absurd hl (h t ht)
      | some l => exact ⟨segment l, by simp only [lemmaSegments, hl]⟩)
    exact ⟨vocabulary threshold 4 ss.flatten, by simp only [lemmaVocabulary, hss]⟩

variable (tok : Nat → TextToken)

/-- What a provider needs depends on which documents there are. -/
theorem Provider.needs_congr {d e : List Document} (h : ∀ g, g ∈ d ↔ g ∈ e) {p : Provider} (hp : p.Needs float d) :
    p.Needs float e := by
  have h1 : HasWords d → HasWords e := fun ⟨g, hg, hw⟩ => ⟨g, (h g).1 hg, hw⟩
  have h2 : AllLemmatized d → AllLemmatized e := fun ha g hg => ha g ((h g).2 hg)
  have h3 : AllTagged d → AllTagged e := fun ha g hg => ha g ((h g).2 hg)
  cases p with
  | lemmaDict l => exact h1 hp
  | posDict l s => exact ⟨h1 hp.1, hp.2.imp id h3⟩
  | lemmaRules f l t => exact ⟨h1 hp.1, h2 hp.2⟩
  | lemmaChars l t m s => exact h2 hp
  | _ => exact hp

theorem Provider.sortable_congr {d e : List Document} (h : ∀ g, g ∈ d ↔ g ∈ e) {p : Provider} (hp : p.Sortable d) :
    p.Sortable e := by
  have h1 : UposThroughout d → UposThroughout e := fun ha g hg t ht g' hg' =>
    ha g ((h g).2 hg) t ht g' ((h g').2 hg')
  have h2 : XposThroughout d → XposThroughout e := fun ha g hg t ht g' hg' =>
    ha g ((h g).2 hg) t ht g' ((h g').2 hg')
  cases p with
  | posDict l s =>
    cases s with
    | joint => exact ⟨h1 hp.1, h2 hp.2⟩
    | xf => exact h2 hp
    | uxf | gran => trivial
  | _ => trivial

/-- What a provider needs to be built. -/
theorem needs_of_built (seen : Seen) (p : Provider) (hall : ∀ s ∈ leafSpecs [p], ∀ g, g ∈ seen s ↔ g ∈ dataset)
    (h : ∀ s ∈ leafSpecs [p], ∃ y, s.build (F := F) lower float zero tok (seen s) = .ok y) : p.Needs float dataset := by
  cases p with
  | sentLength _ | trainable _ _ _ | subwords _ _ _ => trivial
  | wordEmb f i lines lc =>
    obtain ⟨y, hy⟩ := h (.wordEmb f i lines lc) (by simp [leafSpecs, Provider.featureSpec])
    refine (vectorFile_iff float lines).1 ?_
    simp only [LeafSpec.build] at hy
    split at hy
    · cases hy
    · rename_i st hst; exact ⟨st, hst⟩
  | subwordEmb f i lines seg =>
    obtain ⟨y, hy⟩ := h (.subwordEmb f i lines seg) (by simp [leafSpecs, Provider.featureSpec])
    refine (vectorFile_iff float lines).1 ?_
    simp only [LeafSpec.build] at hy
    split at hy
    · cases hy
    · rename_i st hst; exact ⟨st, hst⟩
  | lemmaDict l =>
    obtain ⟨y, hy⟩ := h (.lemmaDict l) (by simp [leafSpecs, labelSpecs, Provider.labelSpec])
    refine Provider.needs_congr float (hall (.lemmaDict l) (by simp [leafSpecs, labelSpecs, Provider.labelSpec])) ?_
    refine (lemmas_iff _).1 ?_
    simp only [LeafSpec.build] at hy
    split at hy
    · cases hy
    · rename_i st hst; exact ⟨st, hst⟩
  | lemmaRules f l t =>
    obtain ⟨y, hy⟩ := h (.suffix l t) (by simp [leafSpecs, labelSpecs, Provider.labelSpec])
    refine Provider.needs_congr float (hall (.suffix l t) (by simp [leafSpecs, labelSpecs, Provider.labelSpec])) ?_
    refine (rules_iff lower _ t).1 ?_
    simp only [LeafSpec.build] at hy
    split at hy
    · cases hy
    · rename_i st hst; exact ⟨st, hst⟩
  | lemmaChars l t m seg =>
    obtain ⟨y, hy⟩ := h (.lemmaChars l t m seg) (by simp [leafSpecs, labelSpecs, Provider.labelSpec])
    refine Provider.needs_congr float (hall (.lemmaChars l t m seg) (by simp [leafSpecs, labelSpecs, Provider.labelSpec])) ?_
    refine (chars_iff _ seg t).1 ?_
    simp only [LeafSpec.build] at hy
    split at hy
    · cases hy
    · rename_i st hst; exact ⟨st, hst⟩
  | posDict l s =>
    obtain ⟨y, hy⟩ := h (.posDict l s) (by simp [leafSpecs, labelSpecs, Provider.labelSpec])
    refine Provider.needs_congr float (hall (.posDict l s) (by simp [leafSpecs, labelSpecs, Provider.labelSpec])) ?_
    simp only [LeafSpec.build] at hy
    split at hy
    · cases hy
    · rename_i table ht
      refine ⟨(hasWords_iff _).2 ?_, ?_⟩
      · intro h0
        rw [posLabels, h0, List.map_nil, (C45_not_built s).1] at ht
        cases ht
      · by_cases hs : s = .joint
        · exact Or.inl hs
        · refine Or.inr (fun d hd t htd h0 => ?_)
          obtain ⟨e, he⟩ := (C45_not_built s).2 hs (posLabels _) ((posLabels_mem _).2 ⟨d, hd, t, htd, h0⟩)
          rw [he] at ht
          cases ht

/-- A provider that has what it needs can be built. -/
theorem built_of_needs (p : Provider) (hp : p.Needs float dataset) (hs : p.Sortable dataset) :
    ∀ s ∈ leafSpecs [p], ∃ y, s.build (F := F) lower float zero tok dataset = .ok y := by
  intro s hmem
  cases p with
  | sentLength f =>
    obtain rfl : s = .sentLength f := by simpa [leafSpecs, labelSpecs, Provider.featureSpec, Provider.labelSpec] using hmem
    exact ⟨_, rfl⟩
  | trainable f t lc =>
    obtain rfl : s = .trainable f t lc := by simpa [leafSpecs, labelSpecs, Provider.featureSpec, Provider.labelSpec] using hmem
    exact ⟨_, rfl⟩
  | subwords f t seg =>
    obtain rfl : s = .subwords f t seg := by simpa [leafSpecs, labelSpecs, Provider.featureSpec, Provider.labelSpec] using hmem
    exact ⟨_, rfl⟩
  | wordEmb f i lines lc =>
    obtain rfl : s = .wordEmb f i lines lc := by simpa [leafSpecs, labelSpecs, Provider.featureSpec, Provider.labelSpec] using hmem
    obtain ⟨st, hst⟩ := (vectorFile_iff float lines).2 hp
    exact ⟨_, by simp only [LeafSpec.build, hst]; rfl⟩
  | subwordEmb f i lines seg =>
    obtain rfl : s = .subwordEmb f i lines seg := by simpa [leafSpecs, labelSpecs, Provider.featureSpec, Provider.labelSpec] using hmem
    obtain ⟨st, hst⟩ := (vectorFile_iff float lines).2 hp
    exact ⟨_, by simp only [LeafSpec.build, hst]; rfl⟩
  | lemmaDict l =>
    obtain rfl : s = .lemmaDict l := by simpa [leafSpecs, labelSpecs, Provider.featureSpec, Provider.labelSpec] using hmem
    obtain ⟨st, hst⟩ := (lemmas_iff dataset).2 hp
    exact ⟨_, by simp only [LeafSpec.build, hst]; rfl⟩
  | lemmaRules f l t =>
    obtain ⟨st, hst⟩ := (rules_iff lower dataset t).2 hp
    have : s = .applicable f t ∨ s = .suffix l t := by
      simpa [leafSpecs, labelSpecs, Provider.featureSpec, Provider.labelSpec] using hmem
    rcases this with rfl | rfl
    · exact ⟨_, by simp only [LeafSpec.build, hst]; rfl⟩
    · exact ⟨_, by simp only [LeafSpec.build, hst]; rfl⟩
  | lemmaChars l t m seg =>
    obtain rfl : s = .lemmaChars l t m seg := by simpa [leafSpecs, labelSpecs, Provider.featureSpec, Provider.labelSpec] using hmem
    obtain ⟨st, hst⟩ := (chars_iff dataset seg t).2 hp
    exact ⟨_, by simp only [LeafSpec.build, hst]; rfl⟩
  | posDict l sp =>
    obtain rfl : s = .posDict l sp := by simpa [leafSpecs, labelSpecs, Provider.featureSpec, Provider.labelSpec] using hmem
    obtain ⟨hw, htag⟩ := hp
    have hne : posLabels dataset ≠ [] := by
      have := (hasWords_iff dataset).1 hw
      simpa [posLabels] using this
    obtain ⟨table, ht⟩ := C45_built sp (posLabels dataset) hne (htag.imp id (fun h h0 => by
        obtain ⟨d, hd, t, htd, e⟩ := (posLabels_mem dataset).1 h0
        exact h d hd t htd e)) (by
      intro p q hp hq
      obtain ⟨d, hd, t, htd, e⟩ := (posLabels_mem dataset).1 hp
      obtain ⟨d', hd', t', htd', e'⟩ := (posLabels_mem dataset).1 hq
      refine ⟨?_, ?_⟩
      · rintro rfl
        exact hs.1 d hd t htd d' hd' t' htd' p q e e'
      · rintro (rfl | rfl)
        · exact hs.2 d hd t htd d' hd' t' htd' p q e e'
        · exact hs d hd t htd d' hd' t' htd' p q e e')
    have hc : ∃ counts, countParts (counter Token.optPosEq (posLabels dataset)) table.splitter = .ok counts := by
      unfold buildPosTable at ht
      split at ht
      · cases ht
      · split at ht
        · cases ht
        · split at ht
          · cases ht
          · rename_i c hc _ _ _
            injection ht with ht
            rw [← ht]
            exact ⟨c, hc⟩
    obtain ⟨counts, hc⟩ := hc
    exact ⟨_, by simp only [LeafSpec.build, ht, hc]; rfl⟩

variable (sp : Sparsify) (ps : List Provider)

theorem leafSpecs_mem {s : LeafSpec} : s ∈ leafSpecs ps ↔ ∃ p ∈ ps, s ∈ leafSpecs [p] := by
  simp only [leafSpecs, labelSpecs, List.mem_append, List.mem_filterMap, List.mem_singleton, exists_eq_left]
  constructor
  · rintro (⟨p, hp, h⟩ | ⟨p, hp, h⟩)
    · exact ⟨p, hp, Or.inl h⟩
    · exact ⟨p, hp, Or.inr h⟩
  · rintro ⟨p, hp, h | h⟩
    · exact Or.inl ⟨p, hp, h⟩
    · exact Or.inr ⟨p, hp, h⟩

/-- C140: if extractors could be built, the training data had what every provider needs. -/
theorem C140_needed (seen : Seen) (ho : seen.Orders ps dataset) (r : Assembled F)
    (h : assemble lower float zero tok sp seen ps = .ok r) :
    ps ≠ [] ∧ ∀ p ∈ ps, p.Needs float dataset := by
  obtain ⟨h1, h2⟩ := (C120_builds lower float zero tok sp seen ps).1 ⟨r, h⟩
  exact ⟨h1, fun p hp => needs_of_built lower float zero dataset tok seen p
    (fun s hs g => (ho s ((leafSpecs_mem ps).2 ⟨p, hp, hs⟩)).mem_iff) (fun s hs => h2 s ((leafSpecs_mem ps).2 ⟨p, hp, hs⟩))⟩

/-- C140: extractors can be built from training data that has what every provider needs, if tags that are sorted as a whole
are complete throughout. -/
theorem C140_enough (seen : Seen) (ho : seen.Orders ps dataset) (hne : ps ≠ [])
    (h : ∀ p ∈ ps, p.Needs float dataset) (hs : ∀ p ∈ ps, p.Sortable dataset) :
    ∃ r : Assembled F, assemble lower float zero tok sp seen ps = .ok r := by
  refine (C120_builds lower float zero tok sp seen ps).2 ⟨hne, fun s hmem => ?_⟩
  obtain ⟨p, hp, hsp⟩ := (leafSpecs_mem ps).1 hmem
  have hm : ∀ g, g ∈ dataset ↔ g ∈ seen s := fun g => (ho s hmem).mem_iff.symm
  exact built_of_needs lower float zero (seen s) tok p (Provider.needs_congr float hm (h p hp))
    (Provider.sortable_congr hm (hs p hp)) s hsp

/-- C140: if no tags are sorted as a whole, this is exact. -/
theorem C140_iff (seen : Seen) (ho : seen.Orders ps dataset)
    (hs : ∀ p ∈ ps, ∀ l, p ≠ .posDict l .joint ∧ p ≠ .posDict l .xf) :
    (∃ r : Assembled F, assemble lower float zero tok sp seen ps = .ok r) ↔ ps ≠ [] ∧ ∀ p ∈ ps, p.Needs float dataset := by
  constructor
  · rintro ⟨r, hr⟩
    exact C140_needed lower float zero dataset tok sp ps seen ho r hr
  · rintro ⟨h1, h2⟩
    refine C140_enough lower float zero dataset tok sp ps seen ho h1 h2 (fun p hp => ?_)
    cases p with
    | posDict l s =>
      cases s with
      | joint => exact absurd rfl (hs _ hp l).1
      | xf => exact absurd rfl (hs _ hp l).2
      | uxf | gran => trivial
    | _ => trivial

/-- What the documents of a file give to the providers. -/
theorem file_needs {limit : Int} {text : Str} {docs : List Document}
    (hread : readFromStr limit defaultCols text = .ok (docs, none)) (hdocs : docs ≠ [])
    (hlemma : AllLemmatized docs ∨ ∀ p ∈ ps, (∀ f l t, p ≠ .lemmaRules f l t) ∧ ∀ l t m s, p ≠ .lemmaChars l t m s)
    (hvec : ∀ p ∈ ps, (∀ f i lines lc, p = .wordEmb f i lines lc → VectorFile float lines) ∧
      ∀ f i lines s, p = .subwordEmb f i lines s → VectorFile float lines) :
    HasWords docs ∧ ∀ p ∈ ps, p.Needs float docs := by
  have hr := read_docs (by decide) hread
  have hw : HasWords docs := by
    obtain ⟨d, hd⟩ := List.exists_mem_of_ne_nil _ hdocs
    exact ⟨d, hd, read_tokens hread d hd⟩
  have htag : AllTagged docs := by
    intro d hd t ht h0
    obtain ⟨c, hc⟩ := hr d hd
    obtain ⟨it, hit, p, hpw, a, b, sub, repl, g1, g2⟩ := itemsTokens_of (hc.raw.docOf hc.ne).tokens t ht
    obtain ⟨q, hq, _⟩ := (hc.fine it hit p hpw).pos
    rw [g1.pos, hq] at h0
    cases h0
  refine ⟨hw, fun p hp => ?_⟩
  cases p with
  | sentLength _ | trainable _ _ _ | subwords _ _ _ => trivial
  | wordEmb f i lines lc => exact (hvec _ hp).1 f i lines lc rfl
  | subwordEmb f i lines seg => exact (hvec _ hp).2 f i lines seg rfl
  | lemmaDict l => exact hw
  | posDict l s => exact ⟨hw, Or.inr htag⟩
  | lemmaRules f l t => exact ⟨hw, hlemma.resolve_right (fun h => (h _ hp).1 f l t rfl)⟩
  | lemmaChars l t m seg => exact hlemma.resolve_right (fun h => (h _ hp).2 l t m seg rfl)

/-- C140: for a file that can be read: every tag can be split into its parts, so only lemmas can be missing.  If there are
none missing when they are needed, and no two providers use the same name, an epoch of training over the documents of the
file, in whatever order and with whatever sparsification, does not fail. -/
theorem C140_file {limit : Int} {text : Str} {docs : List Document}
    (hread : readFromStr limit defaultCols text = .ok (docs, none)) (hdocs : docs ≠ []) (hne : ps ≠ [])
    (hlemma : AllLemmatized docs ∨ ∀ p ∈ ps, (∀ f l t, p ≠ .lemmaRules f l t) ∧ ∀ l t m s, p ≠ .lemmaChars l t m s)
    (hvec : ∀ p ∈ ps, (∀ f i lines lc, p = .wordEmb f i lines lc → VectorFile float lines) ∧
      ∀ f i lines s, p = .subwordEmb f i lines s → VectorFile float lines)
    (hs : ∀ p ∈ ps, p.Sortable docs) (hf : (featureNames ps).Nodup)
    (ha : ((leafSpecs ps).filterMap LeafSpec.announces).Nodup) (other : TextToken) (rate : Rat)
    (rnd : Obj → Str → Nat → Rat) (n : Int) (seen : Seen) (ho : seen.Orders ps docs) (docs' : List Document) (hperm : docs'.Perm docs) :
    ∃ steps, trainingFeed lower float zero other (fun o k f => (sparseRate (rnd o k) rate f 0).map Prod.fst) seen ps n
      docs' = .ok steps := by
  obtain ⟨_, hneeds⟩ := file_needs float ps hread hdocs hlemma hvec
  obtain ⟨r, hr⟩ := C140_enough lower float zero docs (datasetTok other docs') keepAll ps seen ho hne hneeds hs
  exact C139_feed lower float zero other seen ps ⟨⟨_, _, r, hr⟩, hf, ha⟩ rate rnd n docs' (fun d hd =>
    ⟨fun s hs => (ho s hs).mem_iff.2 (hperm.mem_iff.1 hd), (read_builtValid hread d (hperm.mem_iff.1 hd)).built⟩)

end

namespace Demo

/-- Three words, the second one without a universal tag. -/
def gapFile : Str := ("1\ta\ta\tX\t_\t_\t0\troot\t_\t_\n2\tb\t_\t_\t_\t_\t1\tdep\t_\t_\n" ++
  "3\tc\tc\tY\t_\t_\t1\tdep\t_\t_\n4\td\tc\tX\t_\t_\t1\tdep\t_\t_\n\n").toList

def gapDocs : List Document := match readFromStr 1 defaultCols gapFile with
  | .ok r => r.1
  | .error _ => []

theorem gapWords : HasWords gapDocs := by
  obtain ⟨d, hd⟩ := List.exists_mem_of_ne_nil gapDocs (by decide +kernel)
  exact ⟨d, hd, read_tokens (limit := 1) (columns := defaultCols) (text := gapFile) (by decide +kernel) d hd⟩

theorem gapRead : readFromStr 1 defaultCols gapFile = .ok (gapDocs, none) := by decide +kernel

end Demo

/-- C140: the condition on tags that are sorted as a whole is needed: in this file a word has no universal tag, and the tags
cannot be numbered as a whole; their parts can. -/
theorem C140_gap : readFromStr 1 defaultCols Demo.gapFile = .ok (Demo.gapDocs, none) ∧
    (Provider.posDict "p".toList .joint).Needs Demo.float Demo.gapDocs ∧
    (assemble id Demo.float 0 Demo.ptok keepAll (fun _ => Demo.gapDocs) [.posDict "p".toList .joint]).map
      (fun _ => ()) = .error .type ∧
    (assemble id Demo.float 0 Demo.ptok keepAll (fun _ => Demo.gapDocs) [.posDict "p".toList .uxf]).map
      (fun _ => ()) = .ok () := by
  refine ⟨Demo.gapRead, ⟨Demo.gapWords, Or.inl rfl⟩, ?_, ?_⟩ <;> decide +kernel

/-- The lemma of the second word is missing: no rules can be learned, but whole lemmas can. -/
example : (assemble id Demo.float 0 Demo.ptok keepAll (fun _ => Demo.gapDocs) [.lemmaRules "f".toList "l".toList 0]).map
      (fun _ => ()) = .error .attribute ∧
    ∃ r : Assembled Int, assemble id Demo.float 0 Demo.ptok keepAll (fun _ => Demo.gapDocs) [.lemmaDict "l".toList] = .ok r :=
  ⟨by decide +kernel, (C140_iff id Demo.float 0 Demo.gapDocs Demo.ptok keepAll [.lemmaDict "l".toList] _ (.all _ _) (by simp)).2
    ⟨by simp, by
      intro p hp
      rw [List.mem_singleton] at hp
      subst hp
      exact Demo.gapWords⟩⟩

/-- Tags by their parts and words: an epoch over the file with the gap does not fail. -/
example : ∃ steps, trainingFeed id Demo.float 0 (Demo.ptok 0)
    (fun o k f => (sparseRate ((fun _ _ _ => 0 : Obj → Str → Nat → Rat) o k) 1 f 0).map Prod.fst) (fun _ => Demo.gapDocs)
    [.trainable "w".toList 0 false, .posDict "p".toList .gran] 2 Demo.gapDocs = .ok steps :=
  C140_file id Demo.float 0 _ Demo.gapRead (by decide +kernel) (by simp)
    (Or.inr (by simp)) (by simp) (by simp [Provider.Sortable]) (by decide) (by decide) (Demo.ptok 0) 1 _ 2 _ (.all _ _) _ (List.Perm.refl _)

end Verif
