import Verif.Props.Feeding
import Verif.Proofs.Total

/-! # Lemmas: what is needed for training can be computed -/

namespace Verif

section
variable {F : Type} {lower : Str → Str} {float : Str → Res F} {zero : F} {tok : Nat → TextToken}
  {sp : Sparsify} {dataset : List Document} {seen : Seen} {ps : List Provider}

/-! ### Values of the same form -/

/-- There are lists at the same places of both values. -/
def Outline (a b : Feat) : Prop := ∀ p, (a.at p).map Feat.isList = (b.at p).map Feat.isList

theorem Outline.refl (a : Feat) : Outline a a := fun _ => rfl

theorem Outline.symm {a b : Feat} (h : Outline a b) : Outline b a := fun p => (h p).symm

theorem Outline.trans {a b c : Feat} (h : Outline a b) (h' : Outline b c) : Outline a c := fun p => (h p).trans (h' p)

theorem Outline.some {a b x : Feat} {p : List Nat} (h : Outline a b) (hx : a.at p = some x) :
    ∃ y, b.at p = some y ∧ y.isList = x.isList := by
  have := h p
  rw [hx] at this
  cases hb : b.at p with
  | none => rw [hb] at this; cases this
  | some y =>
    rw [hb] at this
    exact ⟨y, rfl, (Option.some.inj this).symm⟩

theorem outline_list {l m : List Feat} (h : List.Forall₂ Outline l m) : Outline (.list l) (.list m) := by
  intro p
  cases p with
  | nil => rfl
  | cons i p =>
    simp only [Feat.at]
    have := get_of_forall₂ h i
    cases hl : l[i]? with
    | none =>
      cases hm : m[i]? with
      | none => rfl
      | some y => rw [hl, hm] at this; cases this
    | some x =>
      cases hm : m[i]? with
      | none => rw [hl, hm] at this; cases this
      | some y =>
        rw [hl, hm] at this
        cases this with
        | some h => exact h p

theorem outline_of_same {r : Feat → Feat → Prop} {a b : Feat} (h : a.SameShape r b) : Outline a b := by
  intro p
  obtain ⟨h1, h2, h3⟩ := h p
  cases ha : a.at p with
  | none => rw [h3 ha]
  | some x =>
    cases hx : x.isList with
    | false =>
      obtain ⟨y, hy, hyl, _⟩ := h1 x ha hx
      rw [hy]
      simp [hx, hyl]
    | true =>
      cases x <;> cases hx
      obtain ⟨l', hl', _⟩ := h2 _ ha
      rw [hl']
      rfl

theorem outline_uniform {a b : Feat} (h : Outline a b) (ha : a.Uniform) : b.Uniform := by
  intro k x y ⟨p, hp, hx⟩ ⟨q, hq, hy⟩
  obtain ⟨x', hx', e1⟩ := h.symm.some hx
  obtain ⟨y', hy', e2⟩ := h.symm.some hy
  rw [← e1, ← e2]
  exact ha k x' y' ⟨p, hp, hx'⟩ ⟨q, hq, hy'⟩

theorem outline_isList {a b : Feat} (h : Outline a b) : a.isList = b.isList := by
  have := h []
  rw [Feat.at_nil, Feat.at_nil] at this
  exact Option.some.inj this

/-- The length of a list is the number of places in it. -/
theorem outline_length {a b : Feat} {p : List Nat} {l m : List Feat} (h : Outline a b) (hl : a.at p = some (.list l))
    (hm : b.at p = some (.list m)) : l.length = m.length := by
  have key : ∀ {a b : Feat} {l m : List Feat}, Outline a b → a.at p = some (.list l) → b.at p = some (.list m) →
      l.length ≤ m.length := by
    intro a b l m h hl hm
    by_contra hlt
    have hlt : m.length < l.length := by omega
    have h1 : a.at (p ++ [m.length]) = some (l[m.length]) := by
      rw [Feat.at_append, hl]
      simp [Feat.at, List.getElem?_eq_getElem hlt]
    obtain ⟨y, hy, _⟩ := h.some h1
    rw [Feat.at_append, hm] at hy
    simp [Feat.at] at hy
  exact le_antisymm (key h hl hm) (key h.symm hm hl)

theorem hasShape_form {sh : List Nat} {v w : Feat} (hv : v.HasShape sh) (hw : w.HasShape sh) : Outline v w := by
  induction sh generalizing v w with
  | nil =>
    intro p
    have hv : v.isList = false := hv
    have hw : w.isList = false := hw
    cases p with
    | nil => simp [Feat.at_nil, hv, hw]
    | cons i p =>
      cases v <;> cases w <;> simp [Feat.at, Feat.isList] at hv hw ⊢
  | cons n sh ih =>
    obtain ⟨l, rfl, hl, hl'⟩ := hv
    obtain ⟨m, rfl, hm, hm'⟩ := hw
    refine outline_list ?_
    rw [forall₂_getElem?]
    exact ⟨hl.trans hm.symm, fun k x y hx hy => ih (hl' x (List.mem_of_getElem? hx)) (hm' y (List.mem_of_getElem? hy))⟩

theorem outline_pad {a b v : Feat} (h : Outline a b) (hv : padValue a = .ok v) : ∃ w, padValue b = .ok w ∧ Outline v w := by
  obtain ⟨hl, hu⟩ := padValue_uniform ⟨v, hv⟩
  obtain ⟨w, hw⟩ := padValue_total (outline_isList h ▸ hl) (outline_uniform h hu)
  refine ⟨w, hw, ?_⟩
  obtain ⟨_, sh, hs, hk, _, hmin⟩ := padValue_good hv
  obtain ⟨_, sh', hs', hk', _, hmin'⟩ := padValue_good hw
  have key : ∀ {a b v w : Feat} {sh sh' : List Nat}, Outline a b → w.HasShape sh' → b.Keeps w →
      (∀ (k : Nat) m, sh[k]? = some m → ∃ l, a.AtDepth k (.list l) ∧ l.length = m) →
      ∀ (k : Nat) m, sh[k]? = some m → ∃ m', sh'[k]? = some m' ∧ m ≤ m' := by
    intro a b v w sh sh' h hs' hk' hmin k m hm
    obtain ⟨l, ⟨p, hp, hat⟩, hlen⟩ := hmin k m hm
    obtain ⟨y, hy, hyl⟩ := h.some hat
    have hyl : y.isList = true := hyl
    obtain ⟨z, hz, _, hz2⟩ := hk' p y hy
    have hz2 := hz2 hyl
    have hsh := (hasShape_at hs' hz).1
    rw [hp] at hsh
    cases hd : sh'.drop k with
    | nil =>
      rw [hd] at hsh
      have : z.isList = false := hsh
      rw [this] at hz2
      cases hz2
    | cons n s =>
      rw [hd] at hsh
      obtain ⟨l', rfl, hl', _⟩ := hsh
      have hk : sh'[k]? = some n := by
        have := congrArg (fun l => l[0]?) hd
        simpa using this
      refine ⟨n, hk, ?_⟩
      obtain ⟨ly, rfl⟩ : ∃ ly, y = .list ly := by cases y <;> first | exact ⟨_, rfl⟩ | cases hyl
      have e1 := outline_length h hat hy
      rw [← hlen, e1]
      by_contra hlt
      have hlt : n < ly.length := by omega
      have h1 : b.at (p ++ [n]) = some (ly[n]) := by
        rw [Feat.at_append, hy]
        simp [Feat.at, List.getElem?_eq_getElem hlt]
      obtain ⟨z', hz', _⟩ := hk' _ _ h1
      rw [Feat.at_append, hz] at hz'
      have : l'[n]? = none := List.getElem?_eq_none (by omega)
      simp [Feat.at, this] at hz'
  have e : sh = sh' := by
    refine List.ext_getElem? (fun k => ?_)
    have k1 := key (v := v) h hs' hk' hmin k
    have k2 := key (v := w) h.symm hs hk hmin' k
    cases h1 : sh[k]? with
    | none =>
      cases h2 : sh'[k]? with
      | none => rfl
      | some m =>
        obtain ⟨m', hm', _⟩ := k2 m h2
        rw [h1] at hm'
        cases hm'
    | some m =>
      obtain ⟨m', hm', h3⟩ := k1 m h1
      obtain ⟨m'', hm'', h4⟩ := k2 m' hm'
      rw [h1] at hm''
      injection hm'' with hm''
      rw [hm']
      congr 1
      omega
  subst e
  exact hasShape_form hs hs'

/-! ### Sparsified features -/

/-- A value with lists at the same places and no other values than numbers. -/
def Sparser (v w : Feat) : Prop := Outline v w ∧ ¬ w.HasOther

/-- Such values for the same names. -/
def SparserD (D D' : Features) : Prop := ∀ k, Option.Rel Sparser (D.get? k) (D'.get? k)

theorem noOther_sparse {f f' : Feat} (h : f.SameShape (fun x y => y = x ∨ y = .int OOV) f') (hf : ¬ f.HasOther) :
    ¬ f'.HasOther := by
  rintro ⟨p, a, ha⟩
  obtain ⟨h1, h2, h3⟩ := h p
  cases hx : f.at p with
  | none => rw [h3 hx] at ha; cases ha
  | some x =>
    cases hl : x.isList with
    | false =>
      obtain ⟨y, hy, _, hr⟩ := h1 x hx hl
      rw [ha] at hy
      injection hy with hy
      subst hy
      rcases hr with hr | hr
      · exact hf ⟨p, a, by rw [hx, hr]⟩
      · cases hr
    | true =>
      cases x <;> cases hl
      obtain ⟨l', hl', _⟩ := h2 _ hx
      rw [ha] at hl'
      cases hl'

theorem noOther_pad {u v : Feat} (h : padValue u = .ok v) (hu : ¬ u.HasOther) : ¬ v.HasOther := by
  rintro ⟨p, a, ha⟩
  obtain ⟨_, _, _, hk, hp, _⟩ := padValue_good h
  cases hx : u.at p with
  | none => cases hp p _ ha rfl hx
  | some x =>
    obtain ⟨y, hy, h1, h2⟩ := hk p x hx
    rw [ha] at hy
    injection hy with hy
    subst hy
    cases hl : x.isList with
    | false => exact hu ⟨p, a, by rw [hx, h1 hl]⟩
    | true => cases h2 hl

/-- Values of a dictionary are replaced. -/
theorem entries_total {f : Str → Feat → Res Feat} {D : Features} (h : ∀ k v, D.get? k = some v → ∃ w, f k v = .ok w) :
    ∃ l, mapM' (fun p : Str × Feat => match f p.1 p.2 with
        | .error e => .error e
        | .ok v => .ok (p.1, v)) D.entries = .ok l ∧
      ∀ k, Option.Rel (fun v w => f k v = .ok w) (D.get? k) ((Dict.ofList l).get? k) := by
  have h' : ∀ p ∈ D.entries, ∃ w, f p.1 p.2 = .ok w := fun p hp => h p.1 p.2 (Dict.get?_mem.2 hp)
  haveI : Inhabited Feat := ⟨.int 0⟩
  choose! g hg using h'
  have hn : ((D.entries.map (fun p => (p.1, g p))).map Prod.fst).Nodup := by
    simpa [Function.comp_def] using D.nodup
  refine ⟨D.entries.map (fun p => (p.1, g p)), mapM'_pure (fun p hp => by rw [hg p hp]), fun k => ?_⟩
  cases hk : D.get? k with
  | none =>
    cases hw : (Dict.ofList (D.entries.map (fun p => (p.1, g p)))).get? k with
    | none => exact .none
    | some w =>
      rw [Dict.get?_mem, Dict.ofList_entries _ hn, List.mem_map] at hw
      obtain ⟨p, hp, e⟩ := hw
      injection e with e1 e2
      subst e1
      rw [Dict.get?_mem.2 (show (p.1, p.2) ∈ D.entries from hp)] at hk
      cases hk
  | some v =>
    have hm := Dict.get?_mem.1 hk
    have : (Dict.ofList (D.entries.map (fun p => (p.1, g p)))).get? k = some (g (k, v)) := by
      rw [Dict.get?_mem, Dict.ofList_entries _ hn, List.mem_map]
      exact ⟨_, hm, rfl⟩
    rw [this]
    exact .some (hg _ hm)

theorem sparserD_keys {D D' : Features} (h : SparserD D D') (k : Str) : k ∈ D.keys ↔ k ∈ D'.keys := by
  rw [← Dict.get?_isSome, ← Dict.get?_isSome]
  have := h k
  revert this
  generalize D.get? k = a
  generalize D'.get? k = b
  intro h
  cases h <;> rfl

theorem sparserD_iter {ds ds' : List Features} (h : List.Forall₂ SparserD ds ds') :
    SparserD (listFeatures (collect ds)) (listFeatures (collect ds')) := by
  intro k
  rw [iterX_get, iterX_get]
  have hk : (∃ d ∈ ds, k ∈ d.keys) ↔ ∃ d ∈ ds', k ∈ d.keys := by
    constructor
    · rintro ⟨d, hd, hk⟩
      obtain ⟨d', hd', hr⟩ := forall₂_mem_left h hd
      exact ⟨d', hd', (sparserD_keys hr k).1 hk⟩
    · rintro ⟨d', hd', hk⟩
      obtain ⟨d, hd, hr⟩ := forall₂_mem_right h hd'
      exact ⟨d, hd, (sparserD_keys hr k).2 hk⟩
  have hv : List.Forall₂ Sparser (ds.filterMap (fun d => d.get? k)) (ds'.filterMap (fun d => d.get? k)) := by
    clear hk
    induction h with
    | nil => exact .nil
    | @cons d d' ds ds' h1 _ ih =>
      have := h1 k
      rw [List.filterMap_cons, List.filterMap_cons]
      cases ha : d.get? k with
      | none =>
        rw [ha] at this
        cases hb : d'.get? k with
        | none => exact ih
        | some w => rw [hb] at this; cases this
      | some v =>
        rw [ha] at this
        cases hb : d'.get? k with
        | none => rw [hb] at this; cases this
        | some w =>
          rw [hb] at this
          cases this with
          | some h => exact .cons h ih
  by_cases hc : ∃ d ∈ ds, k ∈ d.keys
  · rw [if_pos hc, if_pos (hk.1 hc)]
    refine .some ⟨outline_list (hv.imp (fun _ _ h => h.1)), ?_⟩
    rw [hasOther_list]
    rintro ⟨x, hx, ho⟩
    obtain ⟨_, _, hr⟩ := forall₂_mem_right hv hx
    exact hr.2 ho
  · rw [if_neg hc, if_neg (fun h => hc (hk.2 h))]
    exact .none

theorem flatMap_get {ds : List Features} {D : Features} (hD : D.entries = ds.flatMap (fun d => d.entries)) {k : Str}
    {v : Feat} : D.get? k = some v ↔ ∃ d ∈ ds, d.get? k = some v := by
  rw [Dict.get?_mem, hD]
  simp only [List.mem_flatMap, ← Dict.get?_mem]

theorem sparserD_comp {ds ds' : List Features} {D D' : Features} (h : List.Forall₂ SparserD ds ds')
    (hD : D.entries = ds.flatMap (fun d => d.entries)) (hD' : D'.entries = ds'.flatMap (fun d => d.entries)) :
    SparserD D D' := by
  intro k
  cases hv : D.get? k with
  | none =>
    cases hw : D'.get? k with
    | none => exact .none
    | some w =>
      obtain ⟨d', hd', hk⟩ := (flatMap_get hD').1 hw
      obtain ⟨d, hd, hr⟩ := forall₂_mem_right h hd'
      have := hr k
      rw [hk] at this
      cases hdk : d.get? k with
      | none => rw [hdk] at this; cases this
      | some v =>
        rw [(flatMap_get hD).2 ⟨d, hd, hdk⟩] at hv
        cases hv
  | some v =>
    obtain ⟨d, hd, hk⟩ := (flatMap_get hD).1 hv
    obtain ⟨d', hd', hr⟩ := forall₂_mem_left h hd
    have := hr k
    rw [hk] at this
    cases hdk : d'.get? k with
    | none => rw [hdk] at this; cases this
    | some w =>
      rw [hdk] at this
      cases this with
      | some h =>
        rw [(flatMap_get hD').2 ⟨d', hd', hdk⟩]
        exact .some h

theorem disjoint_sparser {ds ds' : List Features} (h : List.Forall₂ SparserD ds ds') (hd : DisjointKeys ds) :
    DisjointKeys ds' := by
  induction h with
  | nil => exact .nil
  | cons h1 h2 ih =>
    obtain ⟨h3, h4⟩ := List.pairwise_cons.1 hd
    refine List.pairwise_cons.2 ⟨?_, ih h4⟩
    intro e' he' k hk hk'
    obtain ⟨e, he, hee⟩ := forall₂_mem_right h2 he'
    exact h3 e he k ((sparserD_keys h1 k).2 hk) ((sparserD_keys hee k).2 hk')

/-- The values of the leaves are numbers. -/
def LeafNumbers (lf : Nat → Res (BuiltX F)) : Prop :=
  ∀ id y o D k v, lf id = .ok y → y.extract o = .ok D → D.get? k = some v → ¬ v.HasOther

mutual
/-- What can be extracted can be extracted with sparsification. -/
theorem sparse_total {lf : Nat → Res (BuiltX F)} (hlf : LeafNumbers lf) (hsp : OnlySparsifies sp)
    (htot : ∀ o k f, ¬ f.HasOther → ∃ f', sp o k f = .ok f') : ∀ (b : Builder) (x x' : BuiltX F),
    b.build lf keepAll = .ok x → b.build lf sp = .ok x' → ∀ (o : Obj) (D : Features), x.extract o = .ok D →
    ∃ D', x'.extract o = .ok D' ∧ SparserD D D'
  | .padding b, x, x', hb, hb', o, D, hD => by
    simp only [Builder.build] at hb hb'
    split at hb
    · cases hb
    · rename_i y hy
      injection hb with hb
      subst hb
      split at hb'
      · cases hb'
      · rename_i y' hy'
        injection hb' with hb'
        subst hb'
        obtain ⟨d, hd, hf⟩ := valX_ok.1 (show valX padValue y.extract o = .ok D from hD)
        obtain ⟨d', hd', hr⟩ := sparse_total hlf hsp htot b y y' hy hy' o d hd
        have hpad : ∀ k v', d'.get? k = some v' → ∃ w w', padValue v' = .ok w' ∧ D.get? k = some w ∧ Sparser w w' := by
          intro k v' hv'
          have := hr k
          rw [hv'] at this
          rcases forall2_get hf k with ⟨h1, _⟩ | ⟨u, w, h1, h2, h3⟩
          · have h1 : d.get? k = none := h1
            rw [h1] at this
            cases this
          · have h1 : d.get? k = some u := h1
            rw [h1] at this
            cases this with
            | some h =>
              obtain ⟨w', hw', ho⟩ := outline_pad h.1 h3
              exact ⟨w, w', hw', h2, ho, noOther_pad hw' h.2⟩
        obtain ⟨l, hl, hrel⟩ := entries_total (f := fun _ => padValue) (D := d')
          (fun k v hv => by obtain ⟨w, w', h, _⟩ := hpad k v hv; exact ⟨w', h⟩)
        refine ⟨Dict.ofList l, ?_, fun k => ?_⟩
        · have hm : mapValues padValue d' = .ok l := hl
          simp only [padX, hd', padFeatures, hm]
        · have h1 := hrel k
          cases hk : d'.get? k with
          | some v' =>
            obtain ⟨w, w', h2, h3, h4⟩ := hpad k v' hk
            rw [hk] at h1
            cases hw : (Dict.ofList l).get? k with
            | none => rw [hw] at h1; cases h1
            | some w2 =>
              rw [hw] at h1
              cases h1 with
              | some h1 =>
                rw [h2] at h1
                injection h1 with h1
                subst h1
                rw [h3]
                exact .some h4
          | none =>
            rw [hk] at h1
            cases hw : (Dict.ofList l).get? k with
            | some w2 => rw [hw] at h1; cases h1
            | none =>
              have h5 := hr k
              rw [hk] at h5
              rcases forall2_get hf k with ⟨_, h6⟩ | ⟨u, w, h6, _, _⟩
              · have h6 : D.get? k = none := h6
                rw [h6]
                exact .none
              · have h6 : d.get? k = some u := h6
                rw [h6] at h5
                cases h5
  | .sparse b, x, x', hb, hb', o, D, hD => by
    simp only [Builder.build] at hb hb'
    split at hb
    · cases hb
    · rename_i y hy
      injection hb with hb
      subst hb
      split at hb'
      · cases hb'
      · rename_i y' hy'
        injection hb' with hb'
        subst hb'
        simp only [sparseAt_keepAll] at hD
        obtain ⟨d', hd', hr⟩ := sparse_total hlf hsp htot b y y' hy hy' o D hD
        have hno : ∀ k v', d'.get? k = some v' → ∃ v, D.get? k = some v ∧ Sparser v v' := by
          intro k v' hv'
          have := hr k
          rw [hv'] at this
          cases hv : D.get? k with
          | none => rw [hv] at this; cases this
          | some v =>
            rw [hv] at this
            cases this with
            | some h => exact ⟨v, rfl, h⟩
        obtain ⟨l, hl, hrel⟩ := entries_total (f := sp o) (D := d')
          (fun k v hv => by obtain ⟨_, _, h⟩ := hno k v hv; exact htot o k v h.2)
        refine ⟨Dict.ofList l, ?_, fun k => ?_⟩
        · simp only [sparseAt, hd']
          split
          · rename_i e he
            cases he.symm.trans hl
          · rename_i l2 h2
            cases h2.symm.trans hl
            rfl
        · have h1 := hrel k
          cases hk : d'.get? k with
          | some v' =>
            obtain ⟨v, h2, h3⟩ := hno k v' hk
            rw [hk] at h1
            cases hw : (Dict.ofList l).get? k with
            | none => rw [hw] at h1; cases h1
            | some w2 =>
              rw [hw] at h1
              cases h1 with
              | some h1 =>
                rw [h2]
                have hs := hsp _ _ _ _ h1
                exact .some ⟨h3.1.trans (outline_of_same hs), noOther_sparse hs h3.2⟩
          | none =>
            rw [hk] at h1
            cases hw : (Dict.ofList l).get? k with
            | some w2 => rw [hw] at h1; cases h1
            | none =>
              have h5 := hr k
              rw [hk] at h5
              cases h6 : D.get? k with
              | none => exact .none
              | some u => rw [h6] at h5; cases h5
  | .iter b, x, x', hb, hb', o, D, hD => by
    simp only [Builder.build] at hb hb'
    split at hb
    · cases hb
    · rename_i y hy
      injection hb with hb
      subst hb
      split at hb'
      · cases hb'
      · rename_i y' hy'
        injection hb' with hb'
        subst hb'
        obtain ⟨ds, hds, rfl⟩ := iterX_ok.1 hD
        have hall : ∀ (os : List Obj) (ds : List Features), mapM' y.extract os = .ok ds →
            ∃ ds', mapM' y'.extract os = .ok ds' ∧ List.Forall₂ SparserD ds ds' := by
          intro os
          induction os with
          | nil =>
            intro ds h
            injection h with h
            subst h
            exact ⟨[], rfl, .nil⟩
          | cons o os ih =>
            intro ds h
            obtain ⟨d, rest, h1, h2, rfl⟩ := mapM'_cons_ok.1 h
            obtain ⟨d', h3, h4⟩ := sparse_total hlf hsp htot b y y' hy hy' o d h1
            obtain ⟨rest', h5, h6⟩ := ih rest h2
            exact ⟨d' :: rest', mapM'_cons_ok.2 ⟨d', rest', h3, h5, rfl⟩, .cons h4 h6⟩
        obtain ⟨ds', h1, h2⟩ := hall _ _ hds
        exact ⟨_, iterX_ok.2 ⟨ds', h1, rfl⟩, sparserD_iter h2⟩
  | .comp l, x, x', hb, hb', o, D, hD => by
    simp only [Builder.build] at hb hb'
    split at hb
    · cases hb
    · rename_i xs hxs
      split at hb'
      · cases hb'
      · rename_i xs' hxs'
        obtain ⟨_, he⟩ := compBuilt_cases hb
        obtain ⟨_, he'⟩ := compBuilt_cases hb'
        rw [he] at hD
        obtain ⟨ds, hds, hdis, hDe⟩ := compX_ok.1 hD
        obtain ⟨ds', hds', hr⟩ := sparse_totalL hlf hsp htot l xs xs' hxs hxs' o ds hds
        obtain ⟨D', h1, h2⟩ := mergeDicts_ok (disjoint_sparser hr hdis)
        exact ⟨D', by rw [he']; exact compX_ok.2 ⟨ds', hds', disjoint_sparser hr hdis, h2⟩, sparserD_comp hr hDe h2⟩
  | .empty, x, x', hb, hb', o, D, hD => by
    simp only [Builder.build, Except.ok.injEq] at hb hb'
    subst hb hb'
    injection hD with hD
    subst hD
    exact ⟨Dict.empty, rfl, fun k => .none⟩
  | .leaf ty id, x, x', hb, hb', o, D, hD => by
    simp only [Builder.build] at hb hb'
    rw [hb] at hb'
    injection hb' with hb'
    subst hb'
    refine ⟨D, hD, fun k => ?_⟩
    cases hk : D.get? k with
    | none => exact .none
    | some v => exact .some ⟨.refl v, hlf id x o D k v hb hD hk⟩
theorem sparse_totalL {lf : Nat → Res (BuiltX F)} (hlf : LeafNumbers lf) (hsp : OnlySparsifies sp)
    (htot : ∀ o k f, ¬ f.HasOther → ∃ f', sp o k f = .ok f') : ∀ (l : List Builder) (xs xs' : List (BuiltX F)),
    Builder.buildL lf keepAll l = .ok xs → Builder.buildL lf sp l = .ok xs' → ∀ (o : Obj) (ds : List Features),
    mapM' (fun x : Extractor => x o) (xs.map BuiltX.extract) = .ok ds →
    ∃ ds', mapM' (fun x : Extractor => x o) (xs'.map BuiltX.extract) = .ok ds' ∧ List.Forall₂ SparserD ds ds'
  | [], xs, xs', hb, hb', o, ds, hds => by
    simp only [Builder.buildL, Except.ok.injEq] at hb hb'
    subst hb hb'
    simp only [List.map_nil, mapM', Except.ok.injEq] at hds
    subst hds
    exact ⟨[], rfl, .nil⟩
  | b :: bs, xs, xs', hb, hb', o, ds, hds => by
    simp only [Builder.buildL] at hb hb'
    split at hb
    · cases hb
    · rename_i y hy
      split at hb
      · cases hb
      · rename_i ys hys
        injection hb with hb
        subst hb
        split at hb'
        · cases hb'
        · rename_i y' hy'
          split at hb'
          · cases hb'
          · rename_i ys' hys'
            injection hb' with hb'
            subst hb'
            rw [List.map_cons, mapM'_cons_ok] at hds
            obtain ⟨d, rest, h1, h2, rfl⟩ := hds
            obtain ⟨d', h3, h4⟩ := sparse_total hlf hsp htot b y y' hy hy' o d h1
            obtain ⟨rest', h5, h6⟩ := sparse_totalL hlf hsp htot bs ys ys' hys hys' o rest h2
            exact ⟨d' :: rest', by rw [List.map_cons, mapM'_cons_ok]; exact ⟨d', rest', h3, h5, rfl⟩, .cons h4 h6⟩
end

/-! ### Values of leaves are numbers -/

theorem noOther_int (i : Int) : ¬ (Feat.int i).HasOther := by
  rintro ⟨p, a, h⟩
  cases p <;> simp [Feat.at] at h

theorem noOther_bool (b : Bool) : ¬ (Feat.bool b).HasOther := by
  rintro ⟨p, a, h⟩
  cases p <;> simp [Feat.at] at h

theorem noOther_ids (ids : List Int) : ¬ (idsFeat ids).HasOther := by
  unfold idsFeat
  rw [hasOther_list]
  rintro ⟨x, hx, h⟩
  obtain ⟨i, _, rfl⟩ := List.mem_map.1 hx
  exact noOther_int i h

theorem noOther_bools (l : List Bool) : ¬ (Feat.list (l.map Feat.bool)).HasOther := by
  rw [hasOther_list]
  rintro ⟨x, hx, h⟩
  obtain ⟨i, _, rfl⟩ := List.mem_map.1 hx
  exact noOther_bool i h

theorem tokenX_noOther {n : Str} {get : TextToken → Res Feat} (h : ∀ t v, get t = .ok v → ¬ v.HasOther) {o : Obj}
    {D : Features} (hD : tokenX tok n get o = .ok D) {k : Str} {v : Feat} (hv : D.get? k = some v) : ¬ v.HasOther := by
  obtain ⟨w, hw, rfl⟩ := tokenX_ok hD
  rw [((get?_single ..).1 hv).2]
  exact h _ _ hw

theorem map_noOther {α : Type} {g : α → Feat} (h : ∀ a, ¬ (g a).HasOther) {r : Res α} {v : Feat}
    (hv : r.map g = .ok v) : ¬ v.HasOther := by
  cases r with
  | error e => cases hv
  | ok a =>
    simp only [Except.map, Except.ok.injEq] at hv
    rw [← hv]
    exact h a

theorem leaf_noOther {s : LeafSpec} {y : BuiltX F} (hy : s.build lower float zero tok dataset = .ok y) {o : Obj}
    {D : Features} (hD : y.extract o = .ok D) {k : Str} {v : Feat} (hv : D.get? k = some v) : ¬ v.HasOther := by
  cases s <;> simp only [LeafSpec.build] at hy
  case sentLength n =>
    injection hy with hy
    subst hy
    injection hD with hD
    subst hD
    rw [((get?_single ..).1 hv).2]
    exact noOther_int _
  case trainable =>
    injection hy with hy
    subst hy
    simp only [constInit, embInit] at hD
    exact tokenX_noOther (fun t v h => by injection h with h; rw [← h]; exact noOther_int _) hD hv
  case subwords =>
    injection hy with hy
    subst hy
    simp only [constInit, embInit] at hD
    exact tokenX_noOther (fun t v h => by injection h with h; rw [← h]; exact noOther_ids _) hD hv
  case wordEmb =>
    split at hy
    · cases hy
    · injection hy with hy
      subst hy
      simp only [constInit, embInit] at hD
      exact tokenX_noOther (fun t v h => by injection h with h; rw [← h]; exact noOther_int _) hD hv
  case subwordEmb =>
    split at hy
    · cases hy
    · injection hy with hy
      subst hy
      simp only [constInit, embInit] at hD
      exact tokenX_noOther (fun t v h => by injection h with h; rw [← h]; exact noOther_ids _) hD hv
  case posDict =>
    split at hy
    · cases hy
    · split at hy
      · cases hy
      · injection hy with hy
        subst hy
        simp only [constInit, embInit] at hD
        exact tokenX_noOther (fun t v h => map_noOther noOther_ids h) hD hv
  case lemmaDict =>
    split at hy
    · cases hy
    · injection hy with hy
      subst hy
      simp only [constInit, embInit] at hD
      exact tokenX_noOther (fun t v h => by injection h with h; rw [← h]; exact noOther_ids _) hD hv
  case applicable =>
    split at hy
    · cases hy
    · injection hy with hy
      subst hy
      simp only [constInit, embInit] at hD
      exact tokenX_noOther (fun t v h => map_noOther noOther_bools h) hD hv
  all_goals
    split at hy
    · cases hy
    · injection hy with hy
      subst hy
      simp only [constInit, embInit] at hD
      exact tokenX_noOther (fun t v h => map_noOther noOther_ids h) hD hv

theorem spec_numbers (spec : Provider → Option LeafSpec) :
    LeafNumbers (buildSpec lower float zero tok seen spec ps) := by
  intro id y o D k v hy hD hv
  obtain ⟨p, s, _, _, hb⟩ := buildSpec_ok.1 hy
  exact leaf_noOther hb hD hv

/-! ### Labels of words of the training data -/

theorem label_extracts {p : Provider} {s : LeafSpec} (hp : p.labelSpec = some s) {y : BuiltX F}
    (hy : s.build lower float zero tok dataset = .ok y) {o : Obj} (ho : tok o.handle ∈ datasetTokens dataset) :
    ∃ v, y.extract o = .ok (Dict.ofList [(s.name, v)]) := by
  have key : ∀ {n : Str} {get : TextToken → Res Feat}, (∃ v, get (tok o.handle) = .ok v) →
      ∃ v, tokenX tok n get o = .ok (Dict.ofList [(n, v)]) := by
    rintro n get ⟨v, hv⟩
    cases o with
    | mk id items =>
      simp only [Obj.handle] at hv
      exact ⟨v, by simp only [tokenX, hv]⟩
  cases p <;> simp only [Provider.labelSpec, reduceCtorEq, Option.some.injEq] at hp <;> subst hp <;>
    simp only [LeafSpec.build] at hy
  case posDict lab splitting =>
    split at hy
    · cases hy
    · rename_i table ht
      split at hy
      · cases hy
      · injection hy with hy
        subst hy
        simp only [constInit, LeafSpec.name]
        refine key ?_
        have hj : splitting = .joint ∨ (tok o.handle).2.pos ≠ none := by
          by_contra hc
          simp only [not_or, ne_eq, not_not] at hc
          obtain ⟨hm, keys, hT⟩ := buildPosTable_spec ht
          have hmem : none ∈ posLabels dataset := by
            rw [← hc.2]
            exact List.mem_map.2 ⟨_, ho, rfl⟩
          obtain ⟨q, hq, he⟩ := firsts_covers optPosEq_rel hmem
          cases q with
          | some q => cases he
          | none =>
            obtain ⟨parts, hparts⟩ := hT.splits none hq
            cases hs : table.splitter with
            | joint =>
              rw [hs] at hm
              cases splitting <;> simp only [makeSplitter] at hm
              · exact hc.1 rfl
              · cases hm
              · cases hm
              · split at hm <;> cases hm
            | _ => rw [hs] at hparts; cases hparts
        obtain ⟨ids, hids, _⟩ := C45_labels_in_range splitting _ table ht _ hj
        exact ⟨idsFeat ids, by rw [hids]; rfl⟩
  case lemmaDict lab =>
    split at hy
    · cases hy
    · injection hy with hy
      subst hy
      simp only [constInit, LeafSpec.name]
      exact key ⟨_, rfl⟩
  case lemmaRules f lab threshold =>
    split at hy
    · cases hy
    · rename_i table ht
      injection hy with hy
      subst hy
      simp only [constInit, LeafSpec.name]
      refine key ?_
      obtain ⟨all, hall, _⟩ := buildRules_ok ht
      obtain ⟨r, _, hr⟩ := forall₂_mem_left (mapM'_ok_iff.1 hall) ho
      exact ⟨_, by simp only [encodeRule, hr]; rfl⟩
  case lemmaChars lab threshold maxLen segment =>
    split at hy
    · cases hy
    · rename_i voc ht
      injection hy with hy
      subst hy
      simp only [constInit, LeafSpec.name]
      refine key ?_
      unfold lemmaVocabulary at ht
      split at ht
      · cases ht
      · rename_i segs hsegs
        obtain ⟨r, _, hr⟩ := forall₂_mem_left (mapM'_ok_iff.1 hsegs) ho
        unfold lemmaSegments at hr
        cases hl : (tok o.handle).2.lemma' with
        | none => rw [hl] at hr; cases hr
        | some l => exact ⟨_, by simp only [encodeChars]; rfl⟩

/-- The labels of a word of the training data are within the announced sizes. -/
theorem label_within {p : Provider} {s : LeafSpec} (hp : p.labelSpec = some s) {y : BuiltX F}
    (hy : s.build lower float zero tok dataset = .ok y) :
    ∃ m d sh, y.shapes = .ok d ∧ d.get? s.name = some sh ∧ ∀ o, tok o.handle ∈ datasetTokens dataset →
      ∃ ids, y.extract o = .ok (Dict.ofList [(s.name, idsFeat ids)]) ∧ ids.length = m ∧ sh.Allows ids := by
  obtain ⟨m, hm⟩ := label_width hp hy
  suffices h : ∃ d sh, y.shapes = .ok d ∧ d.get? s.name = some sh ∧ ∀ o, tok o.handle ∈ datasetTokens dataset →
      ∀ ids, y.extract o = .ok (Dict.ofList [(s.name, idsFeat ids)]) → sh.Allows ids by
    obtain ⟨d, sh, h1, h2, h3⟩ := h
    refine ⟨m, d, sh, h1, h2, fun o ho => ?_⟩
    obtain ⟨v, hv⟩ := label_extracts hp hy ho
    obtain ⟨ids, rfl, hl⟩ := hm o v hv
    exact ⟨ids, hv, hl, h3 o ho ids hv⟩
  cases p <;> simp only [Provider.labelSpec, reduceCtorEq, Option.some.injEq] at hp <;> subst hp
  case posDict lab splitting =>
    obtain ⟨parts, h1, _, h⟩ := leaf_pos hy
    refine ⟨_, _, h1, (get?_single ..).2 ⟨rfl, rfl⟩, fun o _ ids hv => ?_⟩
    obtain ⟨ids', e, h2⟩ := h o _ hv
    rw [idsFeat_inj e]
    exact h2
  case lemmaDict lab =>
    obtain ⟨n, h1, _, h⟩ := leaf_lemmas hy
    refine ⟨_, _, h1, (get?_single ..).2 ⟨rfl, rfl⟩, fun o ho ids hv => ?_⟩
    obtain ⟨i, hi, e, h2⟩ := h o _ hv
    rw [idsFeat_inj e]
    rcases h2 with h2 | ⟨_, _, h2⟩
    · exact .cons ⟨hi, h2⟩ .nil
    · exact absurd rfl (h2 _ ho)
  case lemmaRules f lab t =>
    obtain ⟨n, h1, _, h⟩ := leaf_rules hy
    refine ⟨_, _, h1, (get?_single ..).2 ⟨rfl, rfl⟩, fun o ho ids hv => ?_⟩
    obtain ⟨i, hi, e⟩ := h o _ hv
    rw [idsFeat_inj e]
    exact .cons ⟨by omega, by exact_mod_cast hi⟩ .nil
  case lemmaChars lab t m seg =>
    obtain ⟨n, h1, _, h⟩ := leaf_ids hy
    refine ⟨_, _, h1, (get?_single ..).2 ⟨rfl, rfl⟩, fun o ho ids hv => ⟨n, rfl, fun i hi => ?_⟩⟩
    obtain ⟨j, hj⟩ := List.getElem?_of_mem hi
    obtain ⟨i', e, h3⟩ := h o _ hv [j] (.int i) (by simp [idsFeat, Feat.at, hj]) rfl
    injection e with e
    rw [e]
    exact h3

/-- The labels of a batch of sentences of the training data can be computed. -/
theorem labels_total {l : Builder} {y : BuiltX F}
    (hl : mergeBuilders (ps.zipIdx.map (fun p => Provider.label p.2 p.1)) = .ok l)
    (hy : l.build (buildSpec lower float zero tok seen Provider.labelSpec ps) sp = .ok y)
    (hn : (labelNames ps).Nodup) {n : Nat} {os : List Obj}
    (hos : ∀ o ∈ os, ∀ w ∈ o.items, w.items = [] ∧ ∀ s ∈ labelSpecs ps, tok w.handle ∈ datasetTokens (seen s)) :
    ∃ D, y.extract (.mk n os) = .ok D := by
  rcases labels_built (labels_shape hl) hy with ⟨_, h0⟩ | ⟨ss, ys, h1, h2, h3, h4⟩
  · exact ⟨_, by rw [h0]⟩
  have hword : ∀ o ∈ os, ∀ w ∈ o.items, ∃ D, wordX ys w = .ok D ∧ ∀ k v, D.get? k = some v → ∃ ids, v = idsFeat ids := by
    intro o ho w hw
    obtain ⟨hw1, hw2⟩ := hos o ho w hw
    obtain ⟨h, items⟩ := w
    simp only [Obj.items] at hw1
    subst hw1
    have he : ∀ s ∈ ss, ∃ ids, LabelOf lower float zero tok (seen s) s h ids := by
      intro s hs
      obtain ⟨p, hp, hps⟩ := List.mem_filterMap.1 (h1.mem_iff.1 hs)
      obtain ⟨y', _, hy'⟩ := forall₂_mem_left h3 hs
      obtain ⟨m, d, sh, _, _, hall⟩ := label_within hps hy'
      obtain ⟨ids, hids, _⟩ := hall (.mk h []) (hw2 s (h1.mem_iff.1 hs))
      refine ⟨ids, fun z hz => ?_⟩
      rw [hy'] at hz
      injection hz with hz
      rw [← hz]
      exact hids
    choose! enc henc using he
    obtain ⟨D, h5, h6⟩ := wordX_ok h2 h3 (by
      have : (ss.map LeafSpec.name).Perm (labelNames ps) := by
        rw [labelNames, ← List.map_filterMap]
        exact h1.map _
      exact this.nodup_iff.2 hn) (h := h) (enc := enc) henc
    refine ⟨D, h5, fun k v hv => ?_⟩
    obtain ⟨s, _, _, e⟩ := (h6 k v).1 hv
    exact ⟨_, e⟩
  have hsent : ∀ o ∈ os, ∃ D, iterX (wordX ys) o = .ok D ∧ ∀ k v, D.get? k = some v →
      ∃ l : List (List Int), v = .list (l.map idsFeat) := by
    intro o ho
    obtain ⟨ds, hds⟩ := mapM'_total (f := wordX ys) (l := o.items) (fun w hw => by
      obtain ⟨D, hD, _⟩ := hword o ho w hw
      exact ⟨D, hD⟩)
    refine ⟨_, iterX_ok.2 ⟨ds, hds, rfl⟩, fun k v hv => ?_⟩
    rw [iterX_get] at hv
    split at hv
    · rename_i hc
      injection hv with hv
      have hall : ∀ d ∈ ds, ∀ k v, d.get? k = some v → ∃ ids, v = idsFeat ids := by
        intro d hd
        obtain ⟨w, hw, hwd⟩ := forall₂_mem_right (mapM'_ok_iff.1 hds) hd
        obtain ⟨D, hD, hv⟩ := hword o ho w hw
        rw [hwd] at hD
        injection hD with hD
        rw [hD]
        exact hv
      clear hds
      rw [← hv]
      suffices h : ∃ l : List (List Int), ds.filterMap (fun d => d.get? k) = l.map idsFeat by
        obtain ⟨l, h⟩ := h
        exact ⟨l, by rw [h]⟩
      clear hv hc
      induction ds with
      | nil => exact ⟨[], rfl⟩
      | cons d ds ih =>
        obtain ⟨l, hl⟩ := ih (fun d hd => hall d (by simp [hd]))
        rw [List.filterMap_cons]
        cases hd : d.get? k with
        | none => exact ⟨l, hl⟩
        | some v =>
          obtain ⟨ids, rfl⟩ := hall d (by simp) k v hd
          exact ⟨ids :: l, by simp [hl]⟩
    · cases hv
  obtain ⟨ds, hds⟩ := mapM'_total (f := iterX (wordX ys)) (l := os) (fun o ho => by
    obtain ⟨D, hD, _⟩ := hsent o ho
    exact ⟨D, hD⟩)
  have hbatch : iterX (iterX (wordX ys)) (.mk n os) = .ok (listFeatures (collect ds)) := iterX_ok.2 ⟨ds, hds, rfl⟩
  have hpad : ∀ k v, (listFeatures (collect ds)).get? k = some v → ∃ w, padValue v = .ok w := by
    intro k v hv
    rw [iterX_get] at hv
    split at hv
    · injection hv with hv
      subst hv
      refine padValue_total rfl (uniform_list (fun a ha b hb => ?_))
      have hform : ∀ a ∈ ds.filterMap (fun d => d.get? k), ∃ l : List (List Int), a = .list (l.map idsFeat) := by
        intro a ha
        obtain ⟨d, hd, hda⟩ := List.mem_filterMap.1 ha
        obtain ⟨o, ho, hod⟩ := forall₂_mem_right (mapM'_ok_iff.1 hds) hd
        obtain ⟨D, hD, hv⟩ := hsent o ho
        rw [hod] at hD
        injection hD with hD
        subst hD
        exact hv k a hda
      obtain ⟨l1, rfl⟩ := hform a ha
      obtain ⟨l2, rfl⟩ := hform b hb
      refine alike_list (fun x hx y hy => ?_)
      obtain ⟨i, _, rfl⟩ := List.mem_map.1 hx
      obtain ⟨j, _, rfl⟩ := List.mem_map.1 hy
      exact alike_ids _ _
    · cases hv
  obtain ⟨l2, hl2, _⟩ := entries_total (f := fun _ => padValue) hpad
  have hm : mapValues padValue (listFeatures (collect ds)) = .ok l2 := hl2
  exact ⟨Dict.ofList l2, by rw [h4]; simp only [padX, hbatch, padFeatures, hm]⟩

/-- Label names are different if announced names are. -/
theorem announced_labels (h : ((leafSpecs ps).filterMap LeafSpec.announces).Nodup) : (labelNames ps).Nodup := by
  have e : (labelSpecs ps).filterMap LeafSpec.announces = labelNames ps := by
    rw [labelSpecs, labelNames, List.filterMap_filterMap]
    refine List.filterMap_congr (fun p _ => ?_)
    cases p <;> rfl
  rw [leafSpecs, List.filterMap_append] at h
  rw [← e]
  exact (List.nodup_append.1 h).2.1

end
end Verif
