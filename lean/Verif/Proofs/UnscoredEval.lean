import Verif.Proofs.Unscored
import Verif.Model.EvalMain

/-! # Evaluating treebanks that differ in parts that are not evaluated -/

namespace Verif

/-! ### The alignment, gold side -/

theorem takeGold_gold {lower : Str → Str} {gold vs sys : List UDWord} (h : List.Forall₂ (SameLook lower) gold vs)
    (gi si : Nat) : takeGold gold sys gi si = takeGold vs sys gi si := by
  unfold takeGold wordAt
  rw [h.length_eq]
  rcases sameLook_get h gi with ⟨h1, h2⟩ | ⟨a, b, h1, h2, h3, h4, _⟩
  · rw [h1, h2]
  · rw [h1, h2]
    cases sys[si]? with
    | none => rfl
    | some g => simp only [h3]

theorem spanLoop_gold {lower : Str → Str} {gold vs sys : List UDWord} (h : List.Forall₂ (SameLook lower) gold vs) :
    ∀ fuel gi si e, spanLoop gold sys fuel gi si e = spanLoop vs sys fuel gi si e := by
  intro fuel
  induction fuel with
  | zero => intro gi si e; rfl
  | succ fuel ih =>
    intro gi si e
    rw [spanLoop, spanLoop, beyondEnd_congr h, takeGold_gold h]
    unfold wordAt
    rcases sameLook_get h gi with ⟨h1, h2⟩ | ⟨a, b, h1, h2, h3, h4, _⟩
    · rw [h1, h2]; simp only [ih]
    · rw [h1, h2]; simp only [ih, extendEnd, h3, h4]

theorem findMultiwordSpan_gold {lower : Str → Str} {gold vs sys : List UDWord}
    (h : List.Forall₂ (SameLook lower) gold vs) (gi si : Nat) :
    findMultiwordSpan gold sys gi si = findMultiwordSpan vs sys gi si := by
  unfold findMultiwordSpan wordAt
  rw [h.length_eq]
  rcases sameLook_get h gi with ⟨h1, h2⟩ | ⟨a, b, h1, h2, h3, h4, _⟩
  · rw [h1, h2]
  · rw [h1, h2]
    cases sys[si]? with
    | none => rfl
    | some g => simp only [spanLoop_gold h, h3, h4]

theorem alignLoop_gold {lower : Str → Str} {gold vs sys : List UDWord} (h : List.Forall₂ (SameLook lower) gold vs) :
    ∀ fuel gi si, alignLoop lower gold sys fuel gi si = alignLoop lower vs sys fuel gi si := by
  intro fuel
  induction fuel with
  | zero => intro gi si; rfl
  | succ fuel ih =>
    intro gi si
    rw [alignLoop, alignLoop, findMultiwordSpan_gold h]
    rcases sameLook_get h gi with ⟨h1, h2⟩ | ⟨a, b, h1, h2, h3, h4, _⟩
    · rw [h1, h2]
    · rw [h1, h2]
      cases sys[si]? with
      | none => rfl
      | some g => simp only [ih, h3, h4, alignSpan, forms_congr h]

theorem alignWords_gold {lower : Str → Str} {gold vs sys : List UDWord} (h : List.Forall₂ (SameLook lower) gold vs) :
    alignWords lower gold sys = alignWords lower vs sys := by
  unfold alignWords
  rw [h.length_eq, alignLoop_gold h]

theorem WordLike.look {a b : UDWord} (h : WordLike a b) (lower : Str → Str) : SameLook lower a b :=
  ⟨h.span, h.multi, congrArg lower (h.cols colFORM (by decide) (by decide))⟩

/-! ### The scores -/

/-- Aligned words. -/
structure AlignedLike (a b : AWord) : Prop where
  gold : WordLike a.gold b.gold
  sys : WordLike a.sys b.sys
  goldPar : a.goldPar = b.goldPar
  sysPar : a.sysPar = b.sysPar

theorem mapM_like {α β γ : Type} {R : β → γ → Prop} {f : α → Res β} {g : α → Res γ} (h : ∀ a, ResLike R (f a) (g a)) :
    ∀ l, ResLike (List.Forall₂ R) (mapM' f l) (mapM' g l)
  | [] => .ok .nil
  | a :: l => by
    have h1 := h a
    have h2 := mapM_like h l
    rw [mapM', mapM']
    generalize f a = x at h1
    generalize g a = y at h1
    generalize mapM' f l = u at h2
    generalize mapM' g l = v at h2
    cases h1 with
    | error e => exact .error e
    | ok k =>
      cases h2 with
      | error e => exact .error e
      | ok k' => exact .ok (.cons k k')

theorem fillParents_like {g g' y y' : List UDWord} (hg : List.Forall₂ WordLike g g') (hy : List.Forall₂ WordLike y y')
    (pairs : List (Nat × Nat)) : ResLike (List.Forall₂ AlignedLike) (fillParents g y pairs) (fillParents g' y' pairs) := by
  unfold fillParents
  refine mapM_like (fun p => ?_) pairs
  unfold wordAt
  rcases wordLike_get hg p.1 with ⟨h1, h2⟩ | ⟨a, b, h1, h2, h3⟩
  · rw [h1, h2]; exact .error _
  · rcases wordLike_get hy p.2 with ⟨k1, k2⟩ | ⟨c, d, k1, k2, k3⟩
    · rw [h1, h2, k1, k2]; exact .error _
    · rw [h1, h2, k1, k2]
      exact .ok ⟨h3, k3, congrArg goldParent h3.parent, congrArg (sysParent pairs) k3.parent⟩

theorem totalWeight_like {weight : UDWord → Rat} (hw : ∀ a b, WordLike a b → weight a = weight b) {l m : List UDWord}
    (h : List.Forall₂ WordLike l m) : totalWeight weight l = totalWeight weight m := by
  unfold totalWeight
  congr 1
  induction h with
  | nil => rfl
  | cons h1 _ ih => rw [List.map_cons, List.map_cons, ih, hw _ _ h1]

theorem golds_like {l m : List AWord} (h : List.Forall₂ AlignedLike l m) :
    List.Forall₂ WordLike (l.map AWord.gold) (m.map AWord.gold) := by
  induction h with
  | nil => exact .nil
  | cons h1 _ ih => exact .cons h1.gold ih

theorem filter_like {l m : List AWord} (h : List.Forall₂ AlignedLike l m) {p : AWord → Bool}
    (hp : ∀ a b, AlignedLike a b → p a = p b) : List.Forall₂ AlignedLike (l.filter p) (m.filter p) := by
  induction h with
  | nil => exact .nil
  | cons h1 _ ih =>
    rw [List.filter_cons, List.filter_cons, hp _ _ h1]
    split
    · exact .cons h1 ih
    · exact ih

theorem keyScore_like {κ : Type} [DecidableEq κ] {g g' y y' : List UDWord} {l m : List AWord} (hg : List.Forall₂ WordLike g g')
    (hy : List.Forall₂ WordLike y y') (hl : List.Forall₂ AlignedLike l m) {key : UDWord → Par → κ} {weight : UDWord → Rat}
    (hk : ∀ a b p, WordLike a b → key a p = key b p) (hw : ∀ a b, WordLike a b → weight a = weight b) :
    keyScore g y l key weight = keyScore g' y' m key weight := by
  unfold keyScore
  rw [totalWeight_like hw hg, totalWeight_like hw hy, totalWeight_like hw (golds_like hl),
    totalWeight_like hw (golds_like (filter_like hl (p := fun a => decide (key a.gold a.goldPar = key a.sys a.sysPar)) ?_))]
  intro a b h
  rw [hk _ _ _ h.gold, hk _ _ _ h.sys, h.goldPar, h.sysPar]

theorem wordsScore_like {g g' y y' : List UDWord} {l m : List AWord} (hg : List.Forall₂ WordLike g g')
    (hy : List.Forall₂ WordLike y y') (hl : List.Forall₂ AlignedLike l m) {weight : UDWord → Rat}
    (hw : ∀ a b, WordLike a b → weight a = weight b) : wordsScore g y l weight = wordsScore g' y' m weight := by
  unfold wordsScore
  rw [totalWeight_like hw hg, totalWeight_like hw hy, totalWeight_like hw (golds_like hl)]

theorem metrics_like {g g' y y' : UD} {l m : List AWord} (hg : UDLike g g') (hy : UDLike y y') (hl : List.Forall₂ AlignedLike l m)
    (ws : Option (Dict Str Rat)) : metricsOf g y l ws = metricsOf g' y' m ws := by
  have hu : ∀ a b, WordLike a b → unitWeight a = unitWeight b := fun _ _ _ => rfl
  have hd : ∀ (d : Dict Str Rat) a b, WordLike a b → weightedLas d a = weightedLas d b := by
    intro d a b h
    unfold weightedLas
    rw [h.cols colDEPREL (by decide) (by decide)]
  have hc : ∀ c, 1 ≤ c → c ≤ 7 → ∀ a b p, WordLike a b → colKey c a p = colKey c b p := fun c h1 h2 a b p h => h.cols c h1 h2
  have hlas : ∀ a b p, WordLike a b → lasKey a p = lasKey b p := by
    intro a b p h
    unfold lasKey
    rw [h.cols colDEPREL (by decide) (by decide)]
  have htags : ∀ a b p, WordLike a b → tagsKey a p = tagsKey b p := by
    intro a b p h
    unfold tagsKey
    rw [h.cols colUPOS (by decide) (by decide), h.cols colXPOS (by decide) (by decide), h.cols colFEATS (by decide) (by decide)]
  have huas : ∀ a b p, WordLike a b → uasKey a p = uasKey b p := fun _ _ _ _ => rfl
  unfold metricsOf
  rw [hg.tokens, hg.sentences, hy.tokens, hy.sentences, wordsScore_like hg.words hy.words hl hu,
    keyScore_like hg.words hy.words hl (hc colUPOS (by decide) (by decide)) hu,
    keyScore_like hg.words hy.words hl (hc colXPOS (by decide) (by decide)) hu,
    keyScore_like hg.words hy.words hl (hc colFEATS (by decide) (by decide)) hu,
    keyScore_like hg.words hy.words hl (hc colLEMMA (by decide) (by decide)) hu,
    keyScore_like hg.words hy.words hl htags hu, keyScore_like hg.words hy.words hl huas hu,
    keyScore_like hg.words hy.words hl hlas hu, keyScore_like hg.words hy.words hl hlas (hd clasWeights)]
  congr 1
  cases ws with
  | none => rfl
  | some d => exact congrArg some (keyScore_like hg.words hy.words hl hlas (hd d))

theorem evaluate_like (lower : Str → Str) {g g' y y' : UD} (hg : UDLike g g') (hy : UDLike y y') (ws : Option (Dict Str Rat)) :
    evaluate lower g y ws = evaluate lower g' y' ws := by
  have lg : List.Forall₂ (SameLook lower) g.words g'.words := hg.words.imp (fun _ _ h => h.look lower)
  have ly : List.Forall₂ (SameLook lower) y.words y'.words := hy.words.imp (fun _ _ h => h.look lower)
  unfold evaluate
  rw [hg.characters, hy.characters, alignWords_gold lg, alignWords_congr ly]
  split
  · rfl
  · cases alignWords lower g'.words y'.words with
    | error e => rfl
    | ok pairs =>
      have := fillParents_like hg.words hy.words pairs
      simp only
      generalize fillParents g.words y.words pairs = u at this
      generalize fillParents g'.words y'.words pairs = v at this
      cases this with
      | error e => rfl
      | ok k => exact congrArg Except.ok (metrics_like hg hy k ws)

theorem load_unscored (d : Nat) {t t' : Str} (h : SameButUnscored t t') : ResLike UDLike (loadConllu d t) (loadConllu d t') := by
  rw [loadConllu_eq, loadConllu_eq]
  exact unscored_run h ⟨⟨⟨rfl, rfl, rfl, .nil⟩, rfl, rfl, rfl⟩, rfl, rfl⟩

theorem wrapper_unscored (float : Str → Res Rat) (lower : Str → Str) (d : Nat) (a : EvalArgs) {g y : Str}
    (hg : SameButUnscored a.gold g) (hy : SameButUnscored a.system y) :
    evaluateWrapper float lower d { a with gold := g, system := y } = evaluateWrapper float lower d a := by
  have h1 := load_unscored d hg
  have h2 := load_unscored d hy
  unfold evaluateWrapper
  simp only
  generalize loadConllu d a.gold = x at h1
  generalize loadConllu d g = x' at h1
  generalize loadConllu d a.system = z at h2
  generalize loadConllu d y = z' at h2
  cases h1 with
  | error e => rfl
  | ok k1 =>
    cases h2 with
    | error e => rfl
    | ok k2 =>
      simp only
      split
      · rfl
      · exact (evaluate_like lower k1 k2 _).symm

end Verif
