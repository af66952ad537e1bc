import Verif.Proofs.Interpreters3

/-! # Proofs about assembled interpreters: predicting the labels of a document -/

namespace Verif

section
variable {F : Type} {lower : Str → Str} {float : Str → Res F} {zero : F} {tok : Nat → TextToken}
  {sp : Sparsify} {dataset : List Document} {seen : Seen} {ps : List Provider}

/-- The label of a word. -/
noncomputable def encOf (lower : Str → Str) (float : Str → Res F) (zero : F) (tok : Nat → TextToken)
    (dataset : List Document) (s : LeafSpec) (h : Nat) : List Int :=
  Classical.epsilon (LabelOf lower float zero tok dataset s h)

theorem idsFeat_inj {a b : List Int} (h : idsFeat a = idsFeat b) : a = b := by
  injection h with h
  exact List.map_injective_iff.2 (fun x y hxy => by injection hxy) h

theorem enc_gold {p : Provider} {s : LeafSpec} {y : BuiltX F} {w : WordInterp} (hp : p.labelSpec = some s)
    (hy : s.build lower float zero tok dataset = .ok y) (hw : s.interp lower dataset = .ok (.word w)) :
    ∃ m : Nat, ∀ h, KnownFor lower dataset (tok h) p →
      w.Trained ∧ (encOf lower float zero tok dataset s h).length = m ∧
        LabelOf lower float zero tok dataset s h (encOf lower float zero tok dataset s h) ∧
        Gold lower p (tok h) w (encOf lower float zero tok dataset s h) := by
  obtain ⟨m, hm⟩ := leaf_gold hp hy hw
  refine ⟨m, fun h hk => ?_⟩
  obtain ⟨h1, ids, h2, h3, h4⟩ := hm h hk
  have h5 : LabelOf lower float zero tok dataset s h ids := by
    intro y' hy'
    rw [hy] at hy'
    injection hy' with hy'
    rw [← hy']
    exact h3
  have h6 : LabelOf lower float zero tok dataset s h (encOf lower float zero tok dataset s h) :=
    Classical.epsilon_spec ⟨ids, h5⟩
  have h7 : encOf lower float zero tok dataset s h = ids := by
    have := h6 y hy
    rw [h3] at this
    injection this with this
    exact (idsFeat_inj (ofList_single_inj this)).symm
  rw [h7] at h6 ⊢
  exact ⟨h1, h2, h6, h4⟩

theorem KnownFor.perm {lower : Str → Str} {d e : List Document} (h : d.Perm e) {g : TextToken} {p : Provider}
    (hk : KnownFor lower d g p) : KnownFor lower e g p := by
  have hT := datasetTokens_perm h
  have hP := posLabels_perm h
  cases p with
  | posDict n s => exact ⟨hP.mem_iff.1 hk.1, fun hs p hp => hk.2 hs p (hP.mem_iff.2 hp)⟩
  | lemmaDict n => exact hk.imp (fun t x => ⟨hT.mem_iff.1 x.1, x.2⟩)
  | lemmaRules n a t =>
    obtain ⟨l, h1, x, h2, l', h3, h4, h5⟩ := hk
    exact ⟨l, h1, x, hT.mem_iff.1 h2, l', h3, h4, by rwa [hT.countP_eq] at h5⟩
  | lemmaChars n t m s =>
    obtain ⟨h1, l, h2, h3, h4⟩ := hk
    have hF := hT.flatMap_right (fun t : TextToken => t.2.lemma'.getD [])
    refine ⟨h1, l, h2, h3, fun c hc => ?_⟩
    obtain ⟨h5, h6⟩ := h4 c hc
    exact ⟨hF.mem_iff.1 h5, by rwa [hF.count_eq] at h6⟩
  | _ => exact hk

theorem Seen.Orders.label {seen : Seen} {ps : List Provider} {dataset : List Document} (h : seen.Orders ps dataset)
    {p : Provider} (hp : p ∈ ps) {s : LeafSpec} (hs : p.labelSpec = some s) : (seen s).Perm dataset :=
  h s (List.mem_append_right _ (List.mem_filterMap.2 ⟨p, hp, hs⟩))

theorem Seen.Orders.feature {seen : Seen} {ps : List Provider} {dataset : List Document} (h : seen.Orders ps dataset)
    {p : Provider} (hp : p ∈ ps) {s : LeafSpec} (hs : p.featureSpec = some s) : (seen s).Perm dataset :=
  h s (List.mem_append_left _ (List.mem_filterMap.2 ⟨p, hp, hs⟩))

theorem Seen.Orders.sub {seen : Seen} {ps : List Provider} {dataset : List Document} (h : seen.Orders ps dataset) :
    ∀ s ∈ leafSpecs ps, ∀ g ∈ seen s, g ∈ dataset :=
  fun s hs _ hg => (h s hs).mem_iff.1 hg

theorem Seen.Orders.all (dataset : List Document) (ps : List Provider) : Seen.Orders (fun _ => dataset) ps dataset :=
  fun _ _ => .refl _

theorem exists_decides {ws : List WordInterp} {b : Bool} (h : ∃ w ∈ ws, w.tagsPos = b) :
    ∃ i ∈ ws, i.tagsPos = b ∧ Decides ws i := by
  induction ws with
  | nil => simp at h
  | cons w ws ih =>
    by_cases hex : ∃ w ∈ ws, w.tagsPos = b
    · obtain ⟨i, h1, h2, pre, post, h3, h4⟩ := ih hex
      exact ⟨i, by simp [h1], h2, w :: pre, post, by simp [h3], h4⟩
    · obtain ⟨w', hw', hb⟩ := h
      rcases List.mem_cons.1 hw' with rfl | hw'
      · refine ⟨w', by simp, hb, [], ws, rfl, ?_⟩
        intro x hx he
        exact hex ⟨x, hx, he.trans hb⟩
      · exact absurd ⟨w', hw', hb⟩ hex

theorem Decides.mem {ws : List WordInterp} {i : WordInterp} (h : Decides ws i) : i ∈ ws := by
  obtain ⟨pre, post, rfl, _⟩ := h
  simp

/-- The integer in a value. -/
def featInt : Feat → Int
  | .int n => n
  | _ => 0

/-- The rows in a value for one sentence. -/
def featRows (v : List Feat) : List (List Int) :=
  (v.flatMap Feat.items).map (fun x => x.items.map featInt)

theorem featRows_sentence (rows : List (List Int)) : featRows [.list (rows.map idsFeat)] = rows := by
  simp only [featRows, List.flatMap_cons, List.flatMap_nil, List.append_nil, Feat.items, List.map_map]
  conv_rhs => rw [← List.map_id rows]
  refine List.map_congr_left (fun r _ => ?_)
  simp [idsFeat, Feat.items, Function.comp_def, featInt]

/-- Change the values of a dictionary. -/
def mapDict {V W : Type} (f : V → W) (d : Dict Str V) : Dict Str W :=
  Dict.ofList (d.entries.map (fun e => (e.1, f e.2)))

theorem mapDict_entries {V W : Type} (f : V → W) (d : Dict Str V) :
    (mapDict f d).entries = d.entries.map (fun e => (e.1, f e.2)) := by
  unfold mapDict
  exact Dict.ofList_entries _ (by
    have := d.nodup
    simpa [Function.comp_def] using this)

theorem mapDict_keys {V W : Type} (f : V → W) (d : Dict Str V) : (mapDict f d).keys = d.keys := by
  simp [Dict.keys, mapDict_entries, Function.comp_def]

theorem mapDict_get? {V W : Type} (f : V → W) (d : Dict Str V) (k : Str) (w : W) :
    (mapDict f d).get? k = some w ↔ ∃ v, d.get? k = some v ∧ w = f v := by
  rw [Dict.get?_mem, mapDict_entries]
  simp only [List.mem_map, Prod.mk.injEq, Prod.exists, Dict.get?_mem]
  constructor
  · rintro ⟨a, b, h1, rfl, rfl⟩; exact ⟨b, h1, rfl⟩
  · rintro ⟨v, h1, rfl⟩; exact ⟨k, v, h1, rfl, rfl⟩

theorem asSequences_lists {P : Features} (h : ∀ k v, P.get? k = some v → v.isList = true) :
    asSequences P = .ok (mapDict Feat.items P) := by
  unfold asSequences
  rw [mapM'_pure (g := fun e => (e.1, e.2.items))]
  · rfl
  · intro e he
    have := h e.1 e.2 (Dict.get?_mem.2 he)
    unfold asSequence
    cases e with
    | mk k v => cases v <;> simp_all [Feat.isList, Feat.items]

end

end Verif
