import Verif.Spec.Aliasing
import Verif.Proofs.PyLemmas

/-!
# Proofs about the sharing of mutable objects
-/

namespace Verif

/-- Whose object it is: inside extras or a part of speech, the caller's, or nobody's any more. -/
inductive Owner where
  | priv | client | junk
  deriving DecidableEq

/-- An atom, or a reference to an existing object of class `c`. -/
def ValOk (own : Nat → Owner) (n : Nat) (c : Owner) : PyVal → Prop
  | .atom _ => True
  | .ref r => r < n ∧ own r = c

def InRange (n : Nat) : PyVal → Prop
  | .atom _ => True
  | .ref r => r < n

theorem ValOk.inRange {own : Nat → Owner} {n : Nat} {c : Owner} {v : PyVal} (h : ValOk own n c v) :
    InRange n v := by
  cases v with
  | atom _ => trivial
  | ref r => exact h.1

theorem InRange.mono {n m : Nat} {v : PyVal} (h : InRange n v) (hl : n ≤ m) : InRange m v := by
  cases v with
  | atom _ => trivial
  | ref r => exact Nat.lt_of_lt_of_le h hl

/-- The classes separate the caller's objects from the private ones. -/
structure Separated (b : Bool) (own : Nat → Owner) (w : Prog) : Prop where
  range : ∀ (r : Nat) o, w.heap[r]? = some o → ∀ k v, o.get? k = some v → InRange w.heap.length v
  closed : ∀ (r : Nat) o, w.heap[r]? = some o → own r ≠ .junk → ∀ k v, o.get? k = some v →
    ValOk own w.heap.length (own r) v
  extras : ∀ r ∈ w.extras, ValOk own w.heap.length .priv (.ref r)
  poses : ∀ r ∈ w.poses, ValOk own w.heap.length (if b then .priv else .client) (.ref r)
  flat : b = true → ∀ r ∈ w.poses, ∀ o, w.heap[r]? = some o → PyObj.Flat o
  known : ∀ v ∈ w.known, ValOk own w.heap.length .client v

theorem separated_initial (b : Bool) : Separated b (fun _ => .client) Prog.initial := by
  constructor <;> simp [Prog.initial]

/-- New objects get class `c`. -/
def extendOwn (own : Nat → Owner) (n : Nat) (c : Owner) (r : Nat) : Owner :=
  if r < n then own r else c

theorem ValOk.extend {own : Nat → Owner} {n m : Nat} {c c' : Owner} {v : PyVal}
    (h : ValOk own n c v) : ValOk (extendOwn own n c') (n + m) c v := by
  cases v with
  | atom _ => trivial
  | ref r =>
    obtain ⟨h1, h2⟩ := h
    exact ⟨by omega, by unfold extendOwn; rw [if_pos h1]; exact h2⟩

theorem movedObj_get? (n : Nat) (o : PyObj) (k : Str) :
    (movedObj n o).get? k = (o.get? k).map (PyVal.moved n) := by
  unfold movedObj Dict.get?
  simp only
  induction o.entries with
  | nil => rfl
  | cons p l ih =>
    obtain ⟨k', v⟩ := p
    simp only [List.map_cons, assocGet]
    split
    · rfl
    · exact ih

theorem movedObj_keys (n : Nat) (o : PyObj) : (movedObj n o).keys = o.keys := by
  unfold movedObj Dict.keys
  rw [List.map_map]; rfl

/-- New objects of one class, whose contents fit that class, do not disturb the separation. -/
theorem Separated.append {b : Bool} {own : Nat → Owner} {w : Prog} (h : Separated b own w)
    (X : List PyObj) (c : Owner)
    (hr : ∀ o ∈ X, ∀ k v, o.get? k = some v → InRange (w.heap.length + X.length) v)
    (hX : c ≠ .junk → ∀ o ∈ X, ∀ k v, o.get? k = some v →
      ValOk (extendOwn own w.heap.length c) (w.heap.length + X.length) c v) :
    Separated b (extendOwn own w.heap.length c) { w with heap := w.heap ++ X } := by
  have hlen : (w.heap ++ X).length = w.heap.length + X.length := List.length_append
  have hcase : ∀ (r : Nat) o, (w.heap ++ X)[r]? = some o →
      (r < w.heap.length ∧ w.heap[r]? = some o) ∨ (w.heap.length ≤ r ∧ o ∈ X) := by
    intro r o e
    by_cases hlt : r < w.heap.length
    · left; rw [List.getElem?_append_left hlt] at e; exact ⟨hlt, e⟩
    · right; rw [List.getElem?_append_right (by omega)] at e
      exact ⟨by omega, List.mem_of_getElem? e⟩
  constructor
  · intro r o e k v hv
    rw [hlen]
    rcases hcase r o e with ⟨_, e'⟩ | ⟨_, e'⟩
    · exact (h.range r o e' k v hv).mono (by omega)
    · exact hr o e' k v hv
  · intro r o e hj k v hv
    rw [hlen]
    rcases hcase r o e with ⟨hlt, e'⟩ | ⟨hge, e'⟩
    · have : extendOwn own w.heap.length c r = own r := by unfold extendOwn; rw [if_pos hlt]
      rw [this] at hj ⊢
      exact (h.closed r o e' hj k v hv).extend
    · have : extendOwn own w.heap.length c r = c := by
        unfold extendOwn; rw [if_neg (by omega)]
      rw [this] at hj ⊢
      exact hX hj o e' k v hv
  · intro r hr'; rw [hlen]; exact (h.extras r hr').extend
  · intro r hr'; rw [hlen]; exact (h.poses r hr').extend
  · intro hb r hr' o e
    have := (h.poses r hr').1
    rw [List.getElem?_append_left this] at e
    exact h.flat hb r hr' o e
  · intro v hv; rw [hlen]; exact (h.known v hv).extend

theorem Separated.addKnown {b : Bool} {own : Nat → Owner} {w : Prog} (h : Separated b own w)
    {v : PyVal} (hv : ValOk own w.heap.length .client v) :
    Separated b own { w with known := w.known ++ [v] } :=
  ⟨h.range, h.closed, h.extras, h.poses, h.flat, fun u hu => by
    rcases List.mem_append.mp hu with hu | hu
    · exact h.known u hu
    · rw [List.mem_singleton] at hu; subst hu; exact hv⟩

theorem Separated.addExtras {b : Bool} {own : Nat → Owner} {w : Prog} (h : Separated b own w)
    {r : Nat} (hv : ValOk own w.heap.length .priv (.ref r)) :
    Separated b own { w with extras := w.extras ++ [r] } :=
  ⟨h.range, h.closed, fun u hu => by
    rcases List.mem_append.mp hu with hu | hu
    · exact h.extras u hu
    · rw [List.mem_singleton] at hu; subst hu; exact hv, h.poses, h.flat, h.known⟩

theorem Separated.addPos {b : Bool} {own : Nat → Owner} {w : Prog} (h : Separated b own w)
    {r : Nat} (hv : ValOk own w.heap.length (if b then .priv else .client) (.ref r))
    (hf : b = true → ∀ o, w.heap[r]? = some o → PyObj.Flat o) :
    Separated b own { w with poses := w.poses ++ [r] } :=
  ⟨h.range, h.closed, h.extras, fun u hu => by
    rcases List.mem_append.mp hu with hu | hu
    · exact h.poses u hu
    · rw [List.mem_singleton] at hu; subst hu; exact hv, fun hb u hu => by
    rcases List.mem_append.mp hu with hu | hu
    · exact h.flat hb u hu
    · rw [List.mem_singleton] at hu; subst hu; exact hf hb, h.known⟩

/-- A deep copy may be given to either side. -/
theorem Separated.deepcopy {b : Bool} {own : Nat → Owner} {w : Prog} (h : Separated b own w)
    (c : Owner) (v : PyVal) :
    Separated b (extendOwn own w.heap.length c) { w with heap := (deepcopy w.heap v).1 } := by
  have key : ∀ o ∈ w.heap.map (movedObj w.heap.length), ∀ k v, o.get? k = some v →
      ValOk (extendOwn own w.heap.length c)
        (w.heap.length + (w.heap.map (movedObj w.heap.length)).length) c v := by
    intro o ho k v hv
    obtain ⟨o', ho', rfl⟩ := List.mem_map.mp ho
    rw [movedObj_get?, Option.map_eq_some_iff] at hv
    obtain ⟨u, hu, rfl⟩ := hv
    obtain ⟨r, hr⟩ := List.mem_iff_getElem?.mp ho'
    have hrange := h.range r o' hr k u hu
    cases u with
    | atom _ => trivial
    | ref s =>
      have hs : s < w.heap.length := hrange
      refine ⟨by rw [List.length_map]; omega, ?_⟩
      unfold extendOwn
      rw [if_neg (by omega)]
  exact h.append _ c (fun o ho k v hv => (key o ho k v hv).inRange) (fun _ => key)

/-- What a step keeps. -/
structure Keeps (own own' : Nat → Owner) (w w' : Prog) : Prop where
  same : ∀ r < w.heap.length, own' r = own r
  heap : ∀ r < w.heap.length, own r = .priv → w'.heap[r]? = w.heap[r]?
  extras : w.extras <+: w'.extras
  poses : w.poses <+: w'.poses
  len : w.heap.length ≤ w'.heap.length

theorem Keeps.refl {own : Nat → Owner} {w : Prog} : Keeps own own w w :=
  ⟨fun _ _ => rfl, fun _ _ _ => rfl, List.prefix_refl _, List.prefix_refl _, le_refl _⟩

theorem Keeps.trans {o1 o2 o3 : Nat → Owner} {w1 w2 w3 : Prog} (h : Keeps o1 o2 w1 w2)
    (h' : Keeps o2 o3 w2 w3) : Keeps o1 o3 w1 w3 :=
  ⟨fun r hr => by rw [h'.same r (Nat.lt_of_lt_of_le hr h.len), h.same r hr],
   fun r hr hp => by
    rw [h'.heap r (Nat.lt_of_lt_of_le hr h.len) (by rw [h.same r hr]; exact hp), h.heap r hr hp],
   h.extras.trans h'.extras, h.poses.trans h'.poses, h.len.trans h'.len⟩

theorem keeps_append {own : Nat → Owner} {w w' : Prog} {X : List PyObj} {c : Owner}
    (hh : w'.heap = w.heap ++ X) (he : w.extras <+: w'.extras) (hp : w.poses <+: w'.poses) :
    Keeps own (extendOwn own w.heap.length c) w w' :=
  ⟨fun r hr => by unfold extendOwn; rw [if_pos hr],
   fun r hr _ => by rw [hh, List.getElem?_append_left hr], he, hp, by rw [hh]; simp⟩

theorem Separated.arg {b : Bool} {own : Nat → Owner} {w : Prog} (h : Separated b own w) {x : Arg}
    {v : PyVal} (hx : w.arg x = .ok v) : ValOk own w.heap.length .client v := by
  cases x with
  | lit n => injection hx with hx; subst hx; trivial
  | var i =>
    unfold Prog.arg at hx
    simp only at hx
    split at hx
    · cases hx
    · rename_i u hu
      injection hx with hx; subst hx
      exact h.known u (List.mem_of_getElem? hu)

theorem obj_ok {w : Prog} {v : PyVal} {r : Nat} {o : PyObj} (h : w.obj v = .ok (r, o)) :
    v = .ref r ∧ w.heap[r]? = some o := by
  cases v with
  | atom n => cases h
  | ref s =>
    unfold Prog.obj at h
    simp only at h
    split at h
    · cases h
    · rename_i o' ho
      injection h with h
      injection h with h1 h2
      subst h1; subst h2
      exact ⟨rfl, ho⟩

theorem privObj_ok {w : Prog} {l : List Nat} {e r : Nat} {o : PyObj}
    (h : w.privObj l e = .ok (r, o)) : l[e]? = some r ∧ w.heap[r]? = some o := by
  unfold Prog.privObj at h
  split at h
  · cases h
  · rename_i s hs
    obtain ⟨e1, e2⟩ := obj_ok h
    injection e1 with e1; subst e1
    exact ⟨hs, e2⟩

theorem Separated.items {b : Bool} {own : Nat → Owner} {w : Prog} (h : Separated b own w)
    {l : List (Str × Arg)} {kvs : List (Str × PyVal)} (hl : w.items l = .ok kvs) :
    ∀ p ∈ kvs, ValOk own w.heap.length .client p.2 := by
  unfold Prog.items at hl
  rw [mapM'_ok_iff] at hl
  induction hl with
  | nil => intro p hp; cases hp
  | cons hab _ ih =>
    intro p hp
    rcases List.mem_cons.mp hp with rfl | hp
    · split at hab
      · cases hab
      · rename_i v hv
        injection hab with hab; subst hab
        exact h.arg hv
    · exact ih p hp

theorem updateList_get?_mem {K V : Type} [DecidableEq K] (l : List (K × V)) : ∀ (d : Dict K V) (k : K) (v : V),
    (d.updateList l).get? k = some v → (k, v) ∈ l ∨ d.get? k = some v := by
  induction l with
  | nil => intro d k v h; exact .inr h
  | cons p l ih =>
    intro d k v h
    rcases ih (d.set p.1 p.2) k v h with h | h
    · exact .inl (List.mem_cons_of_mem _ h)
    · rw [Dict.get?_set] at h
      split at h
      · rename_i e
        injection h with h
        left; rw [← h]; 
        first
          | (rw [← e]; exact List.mem_cons_self ..)
          | (rw [e]; exact List.mem_cons_self ..)
      · exact .inr h

theorem ofList_get?_mem {K V : Type} [DecidableEq K] {l : List (K × V)} {k : K} {v : V}
    (h : (Dict.ofList l).get? k = some v) : (k, v) ∈ l := by
  rcases updateList_get?_mem l _ k v h with h | h
  · exact h
  · cases h

theorem ne_junk_of {c : Owner} (h : c = .priv ∨ c = .client) : c ≠ .junk := by
  rcases h with rfl | rfl <;> decide

theorem Separated.newExtras {b : Bool} {own : Nat → Owner} {w w' : Prog} (h : Separated b own w)
    {v : PyVal} (he : w.newExtras v = .ok w') :
    ∃ own', Separated b own' w' ∧ Keeps own own' w w' := by
  unfold Prog.newExtras at he
  split at he
  · cases he
  · rename_i r o ho
    injection he with he; subst he
    obtain ⟨rfl, hr⟩ := obj_ok ho
    have hlt : r < w.heap.length := (List.getElem?_eq_some_iff.mp hr).1
    have h1 := h.deepcopy .priv (.ref r)
    refine ⟨_, h1.addExtras ?_, keeps_append rfl (List.prefix_append _ _) (List.prefix_refl _)⟩
    refine ⟨by simp [Verif.deepcopy]; omega, ?_⟩
    unfold extendOwn; rw [if_neg (by omega)]

theorem Separated.step {b : Bool} {own : Nat → Owner} {w w' : Prog} (h : Separated b own w) {op : Op}
    (hf : b = true → w.FlatFeats op) (he : w.exec op = .ok w') :
    ∃ own', Separated b own' w' ∧ Keeps own own' w w' := by
  cases op with
  | create l =>
    simp only [Prog.exec] at he
    split at he
    · cases he
    · rename_i kvs hk
      injection he with he; subst he
      have hitems := h.items hk
      have hall : ∀ o ∈ [Dict.ofList kvs], ∀ k v, o.get? k = some v → ValOk own w.heap.length .client v := by
        intro o ho k v hv
        rw [List.mem_singleton] at ho; subst ho
        exact hitems _ (ofList_get?_mem hv)
      have h1 := h.append [Dict.ofList kvs] .client
        (fun o ho k v hv => (hall o ho k v hv).inRange.mono (by omega))
        (fun _ o ho k v hv => (hall o ho k v hv).extend)
      refine ⟨_, h1.addKnown ⟨by simp, ?_⟩, keeps_append rfl (List.prefix_refl _) (List.prefix_refl _)⟩
      unfold extendOwn; rw [if_neg (by omega)]
  | assign x l =>
    simp only [Prog.exec] at he
    split at he
    · cases he
    rename_i v hv
    split at he
    · cases he
    rename_i r o ho
    split at he
    · cases he
    rename_i kvs hk
    injection he with he; subst he
    obtain ⟨rfl, hr⟩ := obj_ok ho
    obtain ⟨hlt, hc⟩ := h.arg hv
    have hitems := h.items hk
    have hget : ∀ (s : Nat) o', (w.heap.set r (Dict.ofList kvs))[s]? = some o' →
        (s = r ∧ o' = Dict.ofList kvs) ∨ (s ≠ r ∧ w.heap[s]? = some o') := by
      intro s o' e
      by_cases hs : s = r
      · left; subst hs
        rw [List.getElem?_set_self hlt] at e
        exact ⟨rfl, (Option.some.inj e).symm⟩
      · right; rw [List.getElem?_set_ne (fun e => hs e.symm)] at e
        exact ⟨hs, e⟩
    refine ⟨own, ?_, ?_⟩
    · constructor
      · intro s o' e k v' hv'
        rw [List.length_set]
        rcases hget s o' e with ⟨rfl, rfl⟩ | ⟨_, e'⟩
        · exact (hitems _ (ofList_get?_mem hv')).inRange
        · exact h.range s o' e' k v' hv'
      · intro s o' e hj k v' hv'
        rw [List.length_set]
        rcases hget s o' e with ⟨rfl, rfl⟩ | ⟨_, e'⟩
        · rw [hc]; exact hitems _ (ofList_get?_mem hv')
        · exact h.closed s o' e' hj k v' hv'
      · intro s hs; rw [List.length_set]; exact h.extras s hs
      · intro s hs; rw [List.length_set]; exact h.poses s hs
      · intro hb s hs o' e
        rcases hget s o' e with ⟨rfl, rfl⟩ | ⟨_, e'⟩
        · have := (h.poses s hs).2
          rw [hb, if_pos rfl, hc] at this
          cases this
        · exact h.flat hb s hs o' e'
      · intro v' hv'; rw [List.length_set]; exact h.known v' hv'
    · refine ⟨fun _ _ => rfl, ?_, List.prefix_refl _, List.prefix_refl _, by simp⟩
      intro s _ hp
      have hne : r ≠ s := by
        rintro rfl
        rw [hc] at hp; cases hp
      exact List.getElem?_set_ne hne
  | read x k =>
    simp only [Prog.exec] at he
    split at he
    · cases he
    rename_i v hv
    split at he
    · cases he
    rename_i r o ho
    split at he
    · cases he
    rename_i y hy
    injection he with he; subst he
    obtain ⟨rfl, hr⟩ := obj_ok ho
    obtain ⟨hlt, hc⟩ := h.arg hv
    have hy' : o.get? k = some y := by
      unfold Dict.getItem at hy
      split at hy
      · rename_i u hu; injection hy with hy; subst hy; exact hu
      · cases hy
    refine ⟨own, h.addKnown ?_, ⟨fun _ _ => rfl, fun _ _ _ => rfl, List.prefix_refl _,
      List.prefix_refl _, le_refl _⟩⟩
    have := h.closed r o hr (ne_junk_of (.inr hc)) k y hy'
    rw [hc] at this; exact this
  | mkExtras x =>
    simp only [Prog.exec] at he
    split at he
    · cases he
    exact h.newExtras he
  | item e k =>
    simp only [Prog.exec] at he
    split at he
    · cases he
    rename_i r o ho
    split at he
    · cases he
    rename_i y hy
    injection he with he; subst he
    obtain ⟨_, hr⟩ := privObj_ok ho
    have hy' : o.get? k = some y := by
      unfold Dict.getItem at hy
      split at hy
      · rename_i u hu; injection hy with hy; subst hy; exact hu
      · cases hy
    have hin := h.range r o hr k y hy'
    have h1 := h.deepcopy .client y
    refine ⟨_, h1.addKnown ?_, keeps_append rfl (List.prefix_refl _) (List.prefix_refl _)⟩
    cases y with
    | atom _ => trivial
    | ref s =>
      have hs : s < w.heap.length := hin
      refine ⟨by simp [Verif.deepcopy]; omega, ?_⟩
      unfold extendOwn; rw [if_neg (by omega)]
  | asDict e =>
    simp only [Prog.exec] at he
    split at he
    · cases he
    rename_i r o ho
    injection he with he; subst he
    obtain ⟨_, hr⟩ := privObj_ok ho
    have hlt : r < w.heap.length := (List.getElem?_eq_some_iff.mp hr).1
    have h1 := h.deepcopy .client (.ref r)
    refine ⟨_, h1.addKnown ?_, keeps_append rfl (List.prefix_refl _) (List.prefix_refl _)⟩
    refine ⟨by simp [Verif.deepcopy]; omega, ?_⟩
    unfold extendOwn; rw [if_neg (by omega)]
  | update e x =>
    simp only [Prog.exec] at he
    split at he
    · cases he
    rename_i v hv
    unfold Prog.updateExtras at he
    split at he
    · cases he
    rename_i r o ho
    split at he
    · cases he
    rename_i r2 u hu
    obtain ⟨he1, hr⟩ := privObj_ok ho
    obtain ⟨rfl, hr2⟩ := obj_ok hu
    split at he
    · injection he with he; subst he
      exact ⟨own, h.addExtras (h.extras r (List.mem_of_getElem? he1)),
        ⟨fun _ _ => rfl, fun _ _ _ => rfl, List.prefix_append _ _, List.prefix_refl _, le_refl _⟩⟩
    · have h1 := h.append [o.update u] .junk (by
        intro o' ho' k v' hv'
        rw [List.mem_singleton] at ho'; subst ho'
        rw [Dict.get?_update] at hv'
        refine InRange.mono ?_ (Nat.le_add_right _ _)
        cases hk : u.get? k with
        | none => rw [hk] at hv'; exact h.range r o hr k v' hv'
        | some y =>
          rw [hk] at hv'
          have : y = v' := by simpa using hv'
          subst this
          exact h.range r2 u hr2 k y hk) (fun hc => absurd rfl hc)
      obtain ⟨own', h2, h3⟩ := h1.newExtras he
      have hk1 : Keeps own (extendOwn own w.heap.length .junk) w
          { w with heap := w.heap ++ [o.update u] } :=
        keeps_append rfl (List.prefix_refl _) (List.prefix_refl _)
      exact ⟨own', h2, hk1.trans h3⟩
  | mkPos x =>
    simp only [Prog.exec] at he
    split at he
    · cases he
    rename_i v hv
    split at he
    · cases he
    rename_i r o ho
    injection he with he; subst he
    have hflat : b = true → PyObj.Flat o := fun hb => hf hb v r o hv ho
    obtain ⟨rfl, hr⟩ := obj_ok ho
    obtain ⟨hlt, hc⟩ := h.arg hv
    have h1 := h.append [o] (if b then .priv else .client) (by
      intro o' ho' k v' hv'
      rw [List.mem_singleton] at ho'; subst ho'
      exact (h.range r o' hr k v' hv').mono (by omega)) (by
      intro _ o' ho' k v' hv'
      rw [List.mem_singleton] at ho'; subst ho'
      cases b with
      | true =>
        obtain ⟨n, rfl⟩ := hflat rfl k v' hv'
        trivial
      | false =>
        have := h.closed r o' hr (ne_junk_of (.inr hc)) k v' hv'
        rw [hc] at this
        exact this.extend)
    refine ⟨_, h1.addPos ⟨by simp, ?_⟩ ?_,
      keeps_append rfl (List.prefix_refl _) (List.prefix_append _ _)⟩
    · unfold extendOwn; rw [if_neg (by omega)]
    · intro hb o' e
      simp only [List.getElem?_concat_length] at e
      rw [← Option.some.inj e]; exact hflat hb
  | feats p =>
    simp only [Prog.exec] at he
    split at he
    · cases he
    rename_i r o ho
    injection he with he; subst he
    obtain ⟨hp, hr⟩ := privObj_ok ho
    have hmem := List.mem_of_getElem? hp
    have h1 := h.append [o] .client (by
      intro o' ho' k v' hv'
      rw [List.mem_singleton] at ho'; subst ho'
      exact (h.range r o' hr k v' hv').mono (by omega)) (by
      intro _ o' ho' k v' hv'
      rw [List.mem_singleton] at ho'; subst ho'
      cases b with
      | true =>
        obtain ⟨n, rfl⟩ := h.flat rfl r hmem o' hr k v' hv'
        trivial
      | false =>
        have hc := (h.poses r hmem).2
        have := h.closed r o' hr (ne_junk_of (.inr hc)) k v' hv'
        rw [hc] at this
        exact this.extend)
    refine ⟨_, h1.addKnown ⟨by simp, ?_⟩, keeps_append rfl (List.prefix_refl _) (List.prefix_refl _)⟩
    unfold extendOwn; rw [if_neg (by omega)]
  | feature p k =>
    simp only [Prog.exec] at he
    split at he
    · cases he
    rename_i r o ho
    obtain ⟨hp, hr⟩ := privObj_ok ho
    have hmem := List.mem_of_getElem? hp
    have hk : ∀ v : PyVal, Keeps own own w { w with known := w.known ++ [v] } := fun v =>
      ⟨fun _ _ => rfl, fun _ _ _ => rfl, List.prefix_refl _, List.prefix_refl _, le_refl _⟩
    split at he
    · injection he with he; subst he
      exact ⟨own, h.addKnown trivial, hk _⟩
    · rename_i y hy
      injection he with he; subst he
      refine ⟨own, h.addKnown ?_, hk _⟩
      cases b with
      | true =>
        obtain ⟨n, rfl⟩ := h.flat rfl r hmem o hr k y hy
        trivial
      | false =>
        have hc := (h.poses r hmem).2
        have := h.closed r o hr (ne_junk_of (.inr hc)) k y hy
        rw [hc] at this
        exact this

theorem Separated.run {b : Bool} (ops : List Op) : ∀ {own : Nat → Owner} {w : Prog},
    Separated b own w → (b = true → w.FlatRun ops) →
    ∃ own', Separated b own' (w.run ops) ∧ Keeps own own' w (w.run ops) := by
  induction ops with
  | nil => intro own w h _; exact ⟨own, h, .refl⟩
  | cons op ops ih =>
    intro own w h hf
    unfold Prog.run
    cases he : w.exec op with
    | error e =>
      exact ih h (fun hb => by
        have := (hf hb).2
        rw [he] at this; exact this)
    | ok w1 =>
      obtain ⟨own1, h1, k1⟩ := h.step (fun hb => (hf hb).1) he
      obtain ⟨own2, h2, k2⟩ := ih h1 (fun hb => by
        have := (hf hb).2
        rw [he] at this; exact this)
      exact ⟨own2, h2, k1.trans k2⟩

/-! ### What is seen -/

theorem view_deepcopy (h : PyHeap) (p : List Str) : ∀ v w : PyVal,
    view (deepcopy h w).1 (v.moved h.length) p = view h v p := by
  have hget : ∀ (r : Nat) (w : PyVal), (deepcopy h w).1[h.length + r]? = (h[r]?).map (movedObj h.length) := by
    intro r w
    unfold deepcopy
    rw [List.getElem?_append_right (by omega), List.getElem?_map]
    congr 2; omega
  induction p with
  | nil =>
    intro v w
    cases v with
    | atom n => rfl
    | ref r =>
      simp only [PyVal.moved, view, hget]
      cases h[r]? with
      | none => rfl
      | some o => simp [movedObj_keys]
  | cons k p ih =>
    intro v w
    cases v with
    | atom n => rfl
    | ref r =>
      simp only [PyVal.moved, view, hget]
      cases h[r]? with
      | none => rfl
      | some o =>
        simp only [Option.map_some, movedObj_get?]
        cases o.get? k with
        | none => rfl
        | some u => exact ih u w

/-- Appending objects does not change what existing values show. -/
theorem view_append {h : PyHeap} {X : List PyObj}
    (hr : ∀ (r : Nat) o, h[r]? = some o → ∀ k v, o.get? k = some v → InRange h.length v)
    (p : List Str) : ∀ v : PyVal, InRange h.length v → view (h ++ X) v p = view h v p := by
  induction p with
  | nil =>
    intro v hv
    cases v with
    | atom n => rfl
    | ref r =>
      have hlt : r < h.length := hv
      simp only [view, List.getElem?_append_left hlt]
  | cons k p ih =>
    intro v hv
    cases v with
    | atom n => rfl
    | ref r =>
      have hlt : r < h.length := hv
      simp only [view, List.getElem?_append_left hlt]
      rw [List.getElem?_eq_getElem hlt]
      simp only
      cases ho : (h[r]).get? k with
      | none => rfl
      | some u => exact ih u (hr r _ (List.getElem?_eq_getElem hlt) k u ho)

/-- Private objects show the same after a run. -/
theorem view_keeps {b : Bool} {own own' : Nat → Owner} {w w' : Prog} (h : Separated b own w)
    (hk : Keeps own own' w w') (p : List Str) : ∀ v : PyVal, ValOk own w.heap.length .priv v →
    view w'.heap v p = view w.heap v p := by
  induction p with
  | nil =>
    intro v hv
    cases v with
    | atom n => rfl
    | ref r => simp only [view, hk.heap r hv.1 hv.2]
  | cons k p ih =>
    intro v hv
    cases v with
    | atom n => rfl
    | ref r =>
      simp only [view, hk.heap r hv.1 hv.2]
      rw [List.getElem?_eq_getElem hv.1]
      simp only
      cases ho : (w.heap[r]'hv.1).get? k with
      | none => rfl
      | some u =>
        have := h.closed r _ (List.getElem?_eq_getElem hv.1) (ne_junk_of (.inl hv.2)) k u ho
        rw [hv.2] at this
        exact ih u this

end Verif
