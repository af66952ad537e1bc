import Verif.Proofs.TrainRun
import Verif.Props.Trainable
import Verif.Props.Training
import Verif.Props.Total
import Verif.Props.BestModel

/-!
# A whole training run: C141
-/

namespace Verif

section
variable {F μ : Type} (lower : Str → Str) (float : Str → Res F) (zero : F) (other : TextToken) (sp : Nat → Sparsify)
  (seen : Seen) (ps : List Provider) (build : Dict Str Shape → Dict Str (InitRows F) → Res μ)
  (opt : μ → Features × Features → Rat → Res (μ × Rat)) (cfg : TrainCfg) (dir : List Str) (pass : Nat → List Document)
  (dev : Option (Nat → List Str × μ → Res ScoreTable))

/-- C141: where the models come from.  The first epoch starts with parameters made for the sizes and initial values that
the extractors announce; every tagger has the parameters that come of running the optimiser once over what is extracted from
the documents of its epoch, starting with those of the tagger before, with the learning rate of the epoch; and its dev
scores are those of these parameters.  So it is even if the training fails at some time. -/
theorem C141_models {st : TrainSt μ} {failure : Option Err}
    (h : neuralTrain lower float zero other sp seen ps build opt cfg dir pass dev = .ok (st, failure)) :
    ∃ (r : Assembled F) (S : Dict Str Shape) (I : Dict Str (InitRows F)) (init : μ),
      assemble lower float zero (fun _ => other) keepAll seen ps = .ok r ∧ r.shapes = .ok S ∧
      r.initial = .ok I ∧ build S I = .ok init ∧
      (∀ (n : Nat) it, st.items[n]? = some it → st.taggers[n]? = some it.2) ∧
      ∀ (n : Nat) path m', st.taggers[n]? = some (path, m') → ∃ m steps lr,
        (n = 0 ∧ m = init ∨ ∃ k path', n = k + 1 ∧ st.taggers[k]? = some (path', m)) ∧
        trainingFeed lower float zero other (sp n) seen ps cfg.batchSize (pass n) = .ok steps ∧ steps ≠ [] ∧
        st.lrs[n]? = some lr ∧ Optimised opt lr m steps m' ∧
        ∀ test, dev = some test → ∃ scores, test n (path, m') = .ok scores ∧ st.items[n]? = some (scores, (path, m')) := by
  unfold neuralTrain at h
  split at h
  · cases h
  · rename_i r hr
    split at h
    · cases h
    · split at h
      · cases h
      · rename_i S hS
        split at h
        · cases h
        · rename_i I hI
          split at h
          · cases h
          · rename_i init hinit
            injection h with h
            have hl := loop_models h
            refine ⟨r, S, I, init, hr, hS, hI, hinit, hl.items, fun n path m' ht => ?_⟩
            have ht' : (st.taggers.map Prod.snd)[n]? = some m' := by rw [List.getElem?_map, ht]; rfl
            have hm : ∃ m, (init :: st.taggers.map Prod.snd)[n]? = some m ∧
                (n = 0 ∧ m = init ∨ ∃ k path', n = k + 1 ∧ st.taggers[k]? = some (path', m)) := by
              cases n with
              | zero => exact ⟨init, rfl, .inl ⟨rfl, rfl⟩⟩
              | succ k =>
                have hk : k < st.taggers.length := by
                  have := (List.getElem?_eq_some_iff.1 ht).1
                  omega
                refine ⟨(st.taggers[k]).2, ?_, .inr ⟨k, (st.taggers[k]).1, rfl, List.getElem?_eq_getElem hk⟩⟩
                rw [List.getElem?_cons_succ, List.getElem?_map, List.getElem?_eq_getElem hk]
                rfl
            obtain ⟨m, hm1, hm2⟩ := hm
            obtain ⟨lr, loss, h1, h2⟩ := hl.chain n m m' hm1 ht'
            obtain ⟨steps, h3, h4, h5⟩ := epoch_feed h2
            exact ⟨m, steps, lr, hm2, h3, h4, h1, h5, fun test htest => hl.tested test htest n _ ht⟩

/-- C141: training does not fail: the providers can be used together, every file of vectors has a line, each epoch goes
through the documents the extractors were built of in some order, and there are words in them; no learning rate is divided
by zero; the network can be built, trained on what is extracted, and tested.  Then there is a tagger for every epoch. -/
theorem C141_trains (dataset : List Document) (ho : seen.Orders ps dataset) (hu : Usable lower float zero seen ps)
    (hvec : ∀ s ∈ leafSpecs ps, ∀ init, s.pretrained ≠ some (init, [])) (hbuilt : ∀ d ∈ dataset, Built d)
    (hwords : HasWords dataset) (hpass : ∀ n, (pass n).Perm dataset) (rate : Nat → Rat) (rnd : Nat → Obj → Str → Nat → Rat)
    (hsp : sp = fun n o k f => (sparseRate (rnd n o k) (rate n) f 0).map Prod.fst) (hcfg : cfg.Divides)
    (hbuild : ∀ S I, ∃ m, build S I = .ok m)
    (hopt : ∀ n steps, trainingFeed lower float zero other (sp n) seen ps cfg.batchSize (pass n) = .ok steps →
      ∀ step ∈ steps, ∀ m lr, ∃ m' loss, opt m step lr = .ok (m', loss))
    (hdev : ∀ test, dev = some test → ∀ n m, ∃ scores, test n (dir ++ [epochName n], m) = .ok scores) :
    ∃ st, neuralTrain lower float zero other sp seen ps build opt cfg dir pass dev = .ok (st, none) ∧
      st.taggers.length = cfg.epochs.toNat := by
  obtain ⟨tok, sp0, r0, hr0⟩ := hu.assembled
  obtain ⟨r, hr⟩ : ∃ r : Assembled F, assemble lower float zero (fun _ => other) keepAll seen ps = .ok r := by
    obtain ⟨r1, hr1⟩ := (C120_builds lower float zero tok keepAll seen ps).2
      ((C120_builds lower float zero tok sp0 seen ps).1 ⟨r0, hr0⟩)
    obtain ⟨r2, h2, _⟩ := assemble_same (tok' := fun _ => other) (hs := []) (hs' := []) .nil hr1
    exact ⟨r2, h2⟩
  obtain ⟨i, hi⟩ := C124_builds lower float zero _ keepAll seen ps r hr
  obtain ⟨S, hS, _⟩ := (C120_shapes lower float zero _ keepAll seen ps r hr).1 hu.announced
  obtain ⟨I, hI, _⟩ := (C120_initial lower float zero _ keepAll seen ps r hr S hS).2 hvec
  obtain ⟨init, hinit⟩ := hbuild S I
  obtain ⟨st, h1, h2⟩ := loop_total (train := feedStep lower float zero other sp seen ps opt) (cfg := cfg) (dir := dir)
    (sents := epochSents pass) (dev := dev) (init := init) hcfg (by
      intro n _ lr m
      obtain ⟨steps, hsteps⟩ := C139_feed lower float zero other seen ps hu (rate n) (rnd n) cfg.batchSize (pass n)
        (fun d hd => ⟨fun s hs => (ho s hs).mem_iff.2 ((hpass n).mem_iff.1 hd), hbuilt d ((hpass n).mem_iff.1 hd)⟩)
      have hsteps' : trainingFeed lower float zero other (sp n) seen ps cfg.batchSize (pass n) = .ok steps := by
        rw [← hsteps, hsp]
      refine epoch_total hsteps' ?_ (fun step hs m => hopt n steps hsteps' step hs m lr) m
      obtain ⟨d, hd, ht⟩ := hwords
      refine ⟨d, (hpass n).mem_iff.2 hd, fun h0 => ?_⟩
      have := (hbuilt d hd).docOk.tiles
      rw [h0] at this
      cases hl : d.tokens with
      | nil => exact ht hl
      | cons t ts =>
        rw [hl] at this
        cases this) (fun test htest n _ m => hdev test htest n m)
  refine ⟨st, ?_, h2⟩
  unfold neuralTrain
  simp only [hr, hi, hS, hI, hinit, h1]

end

theorem read_plain {limit : Int} {text : Str} {docs : List Document} (hr : '\r' ∉ text)
    (h : readFromStr limit defaultCols text = .ok (docs, none)) : ∀ d ∈ docs, ∀ t ∈ d.tokens, TokenPlain d.text t := by
  obtain ⟨_, items, chunks, g1, g2, g3⟩ := C16_accepts_iff.mp h
  rw [contentLines_eq hr] at g1
  have hpl := sentLines_plain g1 (fun l hl => udFileLines_newline l (List.mem_filter.mp hl).1)
  intro d hd
  obtain ⟨i, hi, e⟩ := List.getElem_of_mem hd
  have := (List.forall₂_iff_get.mp g3).2 i (g3.length_eq ▸ hi) hi
  simp only [List.get_eq_getElem, e] at this
  have hcm := List.getElem_mem (l := chunks) (n := i) (g3.length_eq ▸ hi)
  refine docOf_plain (this.docOf (g2.size _ hcm).1) (fun its hits => hpl its ?_)
  rw [← g2.flatten]
  exact List.mem_flatten.mpr ⟨_, hcm, hits⟩

section
variable {F μ : Type} (lower : Str → Str) (float : Str → Res F) (zero : F) (other : TextToken) (sp : Nat → Sparsify)
  (ps : List Provider) (build : Dict Str Shape → Dict Str (InitRows F) → Res μ)
  (opt : μ → Features × Features → Rat → Res (μ × Rat)) (cfg : TrainCfg) (dir : List Str)

/-- C141: training with files.  The training file can be read and has words; lemmas are missing nowhere where they are needed,
files of vectors can be read and have a line, tags that are sorted as a whole are complete throughout, no two providers use
the same name.  The documents are shuffled anew for every builder and every epoch.  The dev file can be read by the reader and by the
evaluation.  If no learning rate is divided by zero, and the network can be built, trained on what is extracted, and answers
within the sizes announced to it, then training does not fail, and gives for every epoch a tagger with its scores: these are
the shares of words of the dev file for which the columns have the values of the tagger. -/
theorem C141_file {limit : Int} {trainText : Str} {docs : List Document} {seen : Seen} {pass : Nat → List Document}
    (hread : readFromStr limit defaultCols trainText = .ok (docs, none)) (hret : '\r' ∉ trainText) (hdocs : docs ≠ [])
    (outer : Nat → Nat) (streams : Nat → Nat → Nat) {B : Nat} (hB : 0 < B) (turn : Nat → Nat)
    (hseen : ∀ s ∈ leafSpecs ps, ∃ k, shuffledIterNth outer streams B docs k = .ok (seen s))
    (hpass : ∀ n, shuffledIterNth outer streams B docs (turn n) = .ok (pass n)) (hne : ps ≠ [])
    (hlemma : AllLemmatized docs ∨ ∀ p ∈ ps, (∀ f l t, p ≠ .lemmaRules f l t) ∧ ∀ l t m s, p ≠ .lemmaChars l t m s)
    (hvec : ∀ p ∈ ps, (∀ f i lines lc, p = .wordEmb f i lines lc → VectorFile float lines ∧ lines ≠ []) ∧
      ∀ f i lines s, p = .subwordEmb f i lines s → VectorFile float lines ∧ lines ≠ [])
    (hs : ∀ p ∈ ps, p.Sortable docs) (hf : (featureNames ps).Nodup)
    (ha : ((leafSpecs ps).filterMap LeafSpec.announces).Nodup)
    (rate : Nat → Rat) (rnd : Nat → Obj → Str → Nat → Rat)
    (hsp : sp = fun n o k f => (sparseRate (rnd n o k) (rate n) f 0).map Prod.fst) (hcfg : cfg.Divides)
    (hbuild : ∀ S I, ∃ m, build S I = .ok m)
    (hopt : ∀ n steps, trainingFeed lower float zero other (sp n) seen ps cfg.batchSize (pass n) = .ok steps →
      ∀ step ∈ steps, ∀ m lr, ∃ m' loss, opt m step lr = .ok (m', loss))
    {depth : Nat} {devText : Str} {devDocs : List Document} {ud : UD} (hdev : PlainFile devText)
    (h1 : readFromStr 1 defaultCols devText = .ok (devDocs, none)) (h2 : loadConllu depth devText = .ok ud)
    (hd : 2 ≤ depth) (hlower : ∀ s, Plain s → Plain (lower s)) (hclear : ∀ p ∈ ps, p.clear docs) (hcut : ∀ p ∈ ps, p.cuts)
    (net : μ → Features → Res Features)
    (hnet : ∀ m blind, prepareTestData devDocs = .ok blind →
      ∀ d ∈ blind, NetWithin lower float zero other seen ps (net m) d) :
    ∃ st, neuralTrain lower float zero other sp seen ps build opt cfg dir pass
        (some fun _ t => testFile lower depth devText (mapM' (trainedTag lower float zero other seen ps (net t.2)))) =
          .ok (st, none) ∧ st.items.length = cfg.epochs.toNat ∧
      ∀ (n : Nat) scores path m, st.items[n]? = some (scores, (path, m)) → ∃ blind pred, prepareTestData devDocs = .ok blind ∧
        mapM' (trainedTag lower float zero other seen ps (net m)) blind = .ok pred ∧
        ∀ name cols f, (name, cols, f) ∈ fileMetrics → ∃ s, scores.get? name = some s ∧
          IsScore s (allTokens devDocs).length (allTokens devDocs).length
            (sameCount (columnValues cols ud) ((allTokens pred).map f)) (some (allTokens devDocs).length) := by
  have hall : ∀ k l, shuffledIterNth outer streams B docs k = .ok l → l.Perm docs := by
    intro k l hk
    obtain ⟨r, hr, hperm, _⟩ := C56_every_pass outer streams hB docs k
    rw [hk] at hr
    injection hr with hr
    subst hr
    exact hperm
  have ho : seen.Orders ps docs := fun s hs => by
    obtain ⟨k, hk⟩ := hseen s hs
    exact hall k _ hk
  have hperm : ∀ n, (pass n).Perm docs := fun n => hall _ _ (hpass n)
  obtain ⟨hwords, hneeds⟩ := file_needs float ps hread hdocs hlemma
    (fun p hp => ⟨fun f i lines lc h => ((hvec p hp).1 f i lines lc h).1, fun f i lines s h => ((hvec p hp).2 f i lines s h).1⟩)
  obtain ⟨r, hr⟩ := C140_enough lower float zero docs (fun _ => other) keepAll ps seen ho hne hneeds hs
  have husable : Usable lower float zero seen ps := ⟨⟨_, _, r, hr⟩, hf, ha⟩
  have hscore : ∀ m, ∃ blind pred table, prepareTestData devDocs = .ok blind ∧
      mapM' (trainedTag lower float zero other seen ps (net m)) blind = .ok pred ∧
      testFile lower depth devText (mapM' (trainedTag lower float zero other seen ps (net m))) = .ok table ∧
      ∀ name cols f, (name, cols, f) ∈ fileMetrics → ∃ s, table.get? name = some s ∧
        IsScore s (allTokens devDocs).length (allTokens devDocs).length
          (sameCount (columnValues cols ud) ((allTokens pred).map f)) (some (allTokens devDocs).length) := fun m =>
    C138_scores lower float zero seen ps other docs ho.sub hdev.returns hdev.comments h1 h2 hd
      (read_plain hret hread) hlower hclear hcut husable (net m) (hnet m)
  obtain ⟨st, g1, g2⟩ := C141_trains lower float zero other sp seen ps build opt cfg dir pass
    (some fun _ t => testFile lower depth devText (mapM' (trainedTag lower float zero other seen ps (net t.2)))) docs ho husable
    (by
      intro s hsp init h0
      obtain ⟨p, hp, hmem'⟩ := (leafSpecs_mem ps).1 hsp
      have hv := hvec p hp
      cases p with
      | wordEmb f i lines lc =>
        obtain rfl : s = .wordEmb f i lines lc := by
          simpa [leafSpecs, labelSpecs, Provider.featureSpec, Provider.labelSpec] using hmem'
        simp only [LeafSpec.pretrained, Option.some.injEq, Prod.mk.injEq] at h0
        exact (hv.1 f i lines lc rfl).2 h0.2
      | subwordEmb f i lines seg =>
        obtain rfl : s = .subwordEmb f i lines seg := by
          simpa [leafSpecs, labelSpecs, Provider.featureSpec, Provider.labelSpec] using hmem'
        simp only [LeafSpec.pretrained, Option.some.injEq, Prod.mk.injEq] at h0
        exact (hv.2 f i lines seg rfl).2 h0.2
      | lemmaRules f l t =>
        have : s = .applicable f t ∨ s = .suffix l t := by
          simpa [leafSpecs, labelSpecs, Provider.featureSpec, Provider.labelSpec] using hmem'
        rcases this with rfl | rfl <;> cases h0
      | _ =>
        simp [leafSpecs, labelSpecs, Provider.featureSpec, Provider.labelSpec] at hmem'
        subst hmem'
        cases h0)
    (fun d hd => (read_builtValid hread d hd).built) hwords hperm rate rnd hsp hcfg hbuild hopt (by
      intro test htest n m
      injection htest with htest
      subst htest
      obtain ⟨_, _, table, _, _, h, _⟩ := hscore m
      exact ⟨table, h⟩)
  obtain ⟨_, _, _, init, _, _, _, _, hitem, hm⟩ := C141_models lower float zero other sp seen ps build opt cfg dir pass _ g1
  have hlen : st.items.length = cfg.epochs.toNat := by
    rw [← g2]
    apply Nat.le_antisymm
    · by_contra hlt
      rw [Nat.not_le] at hlt
      have := hitem _ _ (List.getElem?_eq_getElem hlt)
      rw [List.getElem?_eq_none (Nat.le_refl _)] at this
      cases this
    · by_contra hlt
      rw [Nat.not_le] at hlt
      obtain ⟨_, _, _, _, _, _, _, _, ht⟩ := hm _ _ _ (List.getElem?_eq_getElem hlt)
      obtain ⟨_, _, k⟩ := ht _ rfl
      rw [List.getElem?_eq_none (Nat.le_refl _)] at k
      cases k
  refine ⟨st, g1, hlen, fun n scores path m hit => ?_⟩
  obtain ⟨_, _, _, _, _, _, _, _, ht⟩ := hm n path m (hitem n _ hit)
  obtain ⟨scores', k1, k2⟩ := ht _ rfl
  rw [hit] at k2
  injection k2 with k2
  injection k2 with k2 _
  subst k2
  obtain ⟨blind, pred, table, a1, a2, a3, a4⟩ := hscore m
  rw [a3] at k1
  injection k1 with k1
  subst k1
  exact ⟨blind, pred, a1, a2, a4⟩

end

namespace Demo

/-- A network whose parameters count the steps. -/
def countSteps (m : Nat) (_ : Features × Features) (_ : Rat) : Res (Nat × Rat) := .ok (m + 1, 1)

/-- Training on the letters, one sentence in a step, for `epochs` epochs. -/
def lettersTrained (cfg : TrainCfg) (ps : List Provider) : Res (TrainSt Nat × Option Err) :=
  neuralTrain id float 0 (ptok 0) (fun _ o k f => (sparseRate ((fun _ _ _ _ => 1 : Nat → Obj → Str → Nat → Rat) 0 o k) 0 f 0).map
    Prod.fst) letterSeen ps (fun _ _ => .ok 0) countSteps cfg ["m".toList] (fun _ => letterDocs)
    (some fun _ t => testFile id 10 letterFile (mapM' (trainedTag id float 0 (ptok 0) letterSeen ps
      ((fun (_ : Nat) => mixedNet) t.2))))

theorem letters_blind {blind : List Document} (hb : prepareTestData letterDocs = .ok blind) :
    ∀ d ∈ blind, NetWithin id float 0 (ptok 0) letterSeen letterProviders mixedNet d := by
  have hbl : prepareTestData letterDocs = .ok (letterDocs.map bare) := by decide +kernel
  rw [hbl] at hb
  injection hb with hb
  subst hb
  intro d hd
  obtain ⟨g, hg, rfl⟩ := List.mem_map.1 hd
  simp only [letterDocs, List.mem_cons, List.not_mem_nil, or_false] at hg
  rcases hg with rfl | rfl
  · exact letterWithin (ids := [2, 3]) rfl rfl rfl
  · exact letterWithin (ids := [2]) rfl rfl rfl

/-- The data set is shuffled: in the first turn the documents come the other way round. -/
theorem letter_turns : ∀ s ∈ leafSpecs letterProviders,
    ∃ k, shuffledIterNth (fun k => k) (fun k _ => k) 2 letterDocs k = .ok (letterSeen s) := by
  intro s _
  cases s with
  | trainable _ _ _ => exact ⟨0, rfl⟩
  | _ => exact ⟨1, rfl⟩

end Demo

/-- Three epochs over the file of the letters. -/
example : ∃ st, Demo.lettersTrained ⟨1, 1 / 10, 2, 3, 1⟩ Demo.letterProviders = .ok (st, none) ∧ st.items.length = 3 := by
  obtain ⟨ud, hu⟩ := Demo.letterLoad
  obtain ⟨st, h1, h2, _⟩ := C141_file id Demo.float 0 (Demo.ptok 0) _ Demo.letterProviders (fun _ _ => .ok (0 : Nat))
    Demo.countSteps ⟨1, 1 / 10, 2, 3, 1⟩ ["m".toList] (seen := Demo.letterSeen) (pass := fun _ => Demo.letterDocs)
    Demo.letterRead Demo.letter_plainFile.returns (by simp [Demo.letterDocs]) (fun k => k) (fun k _ => k) (B := 2) (by decide)
    (fun _ => 1) Demo.letter_turns (fun _ => rfl) (by simp [Demo.letterProviders])
    (Or.inr (by simp [Demo.letterProviders])) (by simp [Demo.letterProviders])
    (by simp [Demo.letterProviders, Provider.Sortable]) (by decide) (by decide) (fun _ => 0) (fun _ _ _ _ => 1) rfl
    ⟨by
      intro n _
      have : (0 : Rat) ≤ n := Nat.cast_nonneg n
      positivity, by norm_num⟩
    (fun _ _ => ⟨0, rfl⟩) (fun _ _ _ _ _ m _ => ⟨m + 1, 1, rfl⟩) Demo.letter_plainFile Demo.letterRead hu (by decide)
    (fun s h => h)
    (by
      intro p hp
      simp only [Demo.letterProviders, List.mem_cons, List.not_mem_nil, or_false] at hp
      rcases hp with rfl | rfl | rfl
      · trivial
      · trivial
      · intro h
        cases h)
    (by
      intro p hp
      simp only [Demo.letterProviders, List.mem_cons, List.not_mem_nil, or_false] at hp
      rcases hp with rfl | rfl | rfl <;> trivial)
    (fun _ => Demo.mixedNet) (fun _ blind hb => Demo.letters_blind hb)
  exact ⟨st, h1, h2⟩

/-- With a decay of -1 the learning rate of the second epoch is divided by zero: there is one tagger, which has seen the two
sentences. -/
example : (Demo.lettersTrained ⟨1, -1, 2, 3, 1⟩ Demo.letterProviders).map
    (fun r => (r.1.taggers.map Prod.snd, r.2)) = .ok ([2], some .zeroDivision) := by decide +kernel

/-- With an empty file of vectors nothing is trained. -/
example : (Demo.lettersTrained ⟨1, 0, 2, 3, 1⟩ [.wordEmb "w".toList "W".toList [] false, .posDict "p".toList .uxf]).map
    (fun _ => ()) = .error .type := by decide +kernel

end Verif
