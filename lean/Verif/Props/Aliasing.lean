import Verif.Proofs.Aliasing

/-!
# Extras and parts of speech do not share state with the caller (C108)

Throughout, `Prog.initial.run ops` is any state a program can be in: it may have created, shared,
nested and changed dictionaries in any way, including those it got from the library.
-/

namespace Verif

theorem reached_separated (ops : List Op) :
    ∃ own, Separated false own (Prog.initial.run ops) := by
  obtain ⟨own, h, _⟩ := (separated_initial false).run ops (fun h => by cases h)
  exact ⟨own, h⟩

theorem Prog.Reached.separated {w : Prog} (h : w.Reached) : ∃ own, Separated true own w := by
  obtain ⟨ops, hf, rfl⟩ := h
  obtain ⟨own, h, _⟩ := (separated_initial true).run ops (fun _ => hf)
  exact ⟨own, h⟩

/-- What `Shows` means for the private dictionary. -/
theorem shows_iff {w : Prog} {e : Nat} {f : List Str → Option Found} : w.Shows e f ↔
    ∃ r o, w.extras[e]? = some r ∧ w.heap[r]? = some o ∧ ∀ p, view w.heap (.ref r) p = f p := by
  constructor
  · rintro ⟨w', u, he, hk, hv⟩
    simp only [Prog.exec] at he
    split at he
    · cases he
    rename_i r o ho
    injection he with he; subst he
    obtain ⟨h1, h2⟩ := privObj_ok ho
    refine ⟨r, o, h1, h2, fun p => ?_⟩
    have hu : (deepcopy w.heap (.ref r)).2 = u := by
      have := List.append_cancel_left hk
      simpa using this
    rw [← hv p, ← hu]
    exact (view_deepcopy w.heap p (.ref r) (.ref r)).symm
  · rintro ⟨r, o, h1, h2, hv⟩
    refine ⟨{ w with heap := (deepcopy w.heap (.ref r)).1, known := w.known ++ [(deepcopy w.heap (.ref r)).2] },
      _, ?_, rfl, fun p => ?_⟩
    · simp only [Prog.exec, Prog.privObj, h1, Prog.obj, h2]
    · rw [← hv p]
      exact view_deepcopy w.heap p (.ref r) (.ref r)

theorem showsFeats_iff {b : Bool} {own : Nat → Owner} {w : Prog} (hs : Separated b own w) {i : Nat}
    {f : List Str → Option Found} : w.ShowsFeats i f ↔
    ∃ r o, w.poses[i]? = some r ∧ w.heap[r]? = some o ∧ ∀ p, view w.heap (.ref r) p = f p := by
  have key : ∀ (r : Nat) o, w.heap[r]? = some o → ∀ p,
      view (w.heap ++ [o]) (.ref w.heap.length) p = view w.heap (.ref r) p := by
    intro r o hr p
    cases p with
    | nil => simp only [view, List.getElem?_concat_length, hr]
    | cons k p =>
      simp only [view, List.getElem?_concat_length, hr]
      cases hk : o.get? k with
      | none => rfl
      | some v => exact view_append hs.range p v (hs.range r o hr k v hk)
  constructor
  · rintro ⟨w', u, he, hk, hv⟩
    simp only [Prog.exec] at he
    split at he
    · cases he
    rename_i r o ho
    injection he with he; subst he
    obtain ⟨h1, h2⟩ := privObj_ok ho
    refine ⟨r, o, h1, h2, fun p => ?_⟩
    have hu : PyVal.ref w.heap.length = u := by
      have := List.append_cancel_left hk
      simpa using this
    rw [← hv p, ← hu]
    exact (key r o h2 p).symm
  · rintro ⟨r, o, h1, h2, hv⟩
    refine ⟨{ w with heap := w.heap ++ [o], known := w.known ++ [.ref w.heap.length] }, _, ?_, rfl,
      fun p => ?_⟩
    · simp only [Prog.exec, Prog.privObj, h1, Prog.obj, h2]
    · rw [← hv p]; exact key r o h2 p

/-! ### C108 -/

/-- C108: new extras show what the dictionary given to the constructor showed. -/
theorem C108_extras_stored {ops : List Op} {x : Arg} {v : PyVal} {w' : Prog}
    (hv : (Prog.initial.run ops).arg x = .ok v)
    (h : (Prog.initial.run ops).exec (.mkExtras x) = .ok w') :
    w'.Shows (Prog.initial.run ops).extras.length (view (Prog.initial.run ops).heap v) := by
  generalize Prog.initial.run ops = w at *
  simp only [Prog.exec, hv, Prog.newExtras] at h
  split at h
  · cases h
  rename_i r o ho
  injection h with h; subst h
  obtain ⟨rfl, hr⟩ := obj_ok ho
  rw [shows_iff]
  refine ⟨w.heap.length + r, movedObj w.heap.length o, by simp, ?_, fun p => ?_⟩
  · simp only [deepcopy]
    rw [List.getElem?_append_right (by omega), List.getElem?_map]
    have : w.heap.length + r - w.heap.length = r := by omega
    rw [this, hr]; rfl
  · exact view_deepcopy w.heap p (.ref r) (.ref r)

/-- C108: extras show the same for ever, whatever the program does: changing the dictionary it passed
in, anything inside it, or anything it got out of the extras has no influence. -/
theorem C108_extras_fixed {ops : List Op} {e : Nat} {f : List Str → Option Found}
    (h : (Prog.initial.run ops).Shows e f) (more : List Op) :
    ((Prog.initial.run ops).run more).Shows e f := by
  obtain ⟨own, hs⟩ := reached_separated ops
  generalize Prog.initial.run ops = w at *
  obtain ⟨own', hs', hk⟩ := hs.run more (fun h => by cases h)
  rw [shows_iff] at h ⊢
  obtain ⟨r, o, h1, h2, h3⟩ := h
  have hp := hs.extras r (List.mem_of_getElem? h1)
  refine ⟨r, o, ?_, by rw [hk.heap r hp.1 hp.2]; exact h2, fun p => ?_⟩
  · obtain ⟨t, ht⟩ := hk.extras
    rw [← ht, List.getElem?_append_left (List.getElem?_eq_some_iff.mp h1).1]; exact h1
  · rw [view_keeps hs hk p _ hp]; exact h3 p

/-- C108: `extras[k]` gives a value showing what the extras show under `k`, or a `KeyError` if they
show nothing. -/
theorem C108_item {ops : List Op} {e : Nat} {f : List Str → Option Found}
    (h : (Prog.initial.run ops).Shows e f) (k : Str) :
    (f [k] = none → (Prog.initial.run ops).exec (.item e k) = .error .key) ∧
    (f [k] ≠ none → ∃ w' u, (Prog.initial.run ops).exec (.item e k) = .ok w' ∧
      w'.known = (Prog.initial.run ops).known ++ [u] ∧ ∀ p, view w'.heap u p = f (k :: p)) := by
  obtain ⟨own, hs⟩ := reached_separated ops
  generalize Prog.initial.run ops = w at *
  rw [shows_iff] at h
  obtain ⟨r, o, h1, h2, h3⟩ := h
  have hf : ∀ p, f (k :: p) = match o.get? k with
      | none => none
      | some v => view w.heap v p := fun p => by
    rw [← h3]; simp only [view, h2]; cases o.get? k <;> rfl
  cases hk : o.get? k with
  | none =>
    refine ⟨fun _ => ?_, fun hne => absurd (by rw [hf, hk]) hne⟩
    simp only [Prog.exec, Prog.privObj, h1, Prog.obj, h2, Dict.getItem, hk]
  | some y =>
    have hin := hs.range r o h2 k y hk
    refine ⟨fun hn => ?_, fun _ => ?_⟩
    · exfalso
      rw [hf, hk] at hn
      simp only at hn
      cases y with
      | atom n => simp [view] at hn
      | ref s =>
        have hlt : s < w.heap.length := hin
        simp only [view, List.getElem?_eq_getElem hlt] at hn
        cases hn
    · refine ⟨{ w with heap := (deepcopy w.heap y).1, known := w.known ++ [(deepcopy w.heap y).2] }, _,
        ?_, rfl, fun p => ?_⟩
      · simp only [Prog.exec, Prog.privObj, h1, Prog.obj, h2, Dict.getItem, hk]
      · rw [hf, hk]
        exact view_deepcopy w.heap p y y

theorem keys_updateList {K V : Type} [DecidableEq K] (l : List (K × V)) (hn : (l.map Prod.fst).Nodup) :
    ∀ d : Dict K V, (d.updateList l).keys = d.keys ++ (l.map Prod.fst).filter (fun k => k ∉ d.keys) := by
  induction l with
  | nil => intro d; simp [Dict.updateList]
  | cons p l ih =>
    intro d
    obtain ⟨hp, hn'⟩ := List.nodup_cons.mp hn
    have e : d.updateList (p :: l) = (d.set p.1 p.2).updateList l := rfl
    rw [e, ih hn', Dict.keys_set]
    by_cases hk : p.1 ∈ d.keys
    · simp [hk]
    · rw [if_neg hk]
      simp only [List.map_cons, List.append_assoc]
      rw [List.filter_cons_of_pos (by simpa using hk)]
      congr 1
      simp only [List.singleton_append, List.cons.injEq, true_and]
      apply List.filter_congr
      intro x hx
      have hne : x ≠ p.1 := fun e => hp (e ▸ hx)
      simp [hne]

/-- C108: updating extras gives extras that show the updates under the updated keys and what the old
ones show elsewhere; the old ones keep showing what they did. -/
theorem C108_update {ops : List Op} {e : Nat} {x : Arg} {v : PyVal} {w' : Prog}
    {f : List Str → Option Found} (hf : (Prog.initial.run ops).Shows e f)
    (hv : (Prog.initial.run ops).arg x = .ok v)
    (h : (Prog.initial.run ops).exec (.update e x) = .ok w') :
    w'.Shows (Prog.initial.run ops).extras.length
      (updatedView f (view (Prog.initial.run ops).heap v)) ∧
    w'.Shows e f := by
  refine ⟨?_, by
    have := C108_extras_fixed hf [.update e x]
    simpa only [Prog.run, h] using this⟩
  obtain ⟨own, hs⟩ := reached_separated ops
  generalize Prog.initial.run ops = w at *
  rw [shows_iff] at hf
  obtain ⟨r, o, h1, h2, h3⟩ := hf
  simp only [Prog.exec, hv, Prog.updateExtras] at h
  have hpriv : w.privObj w.extras e = .ok (r, o) := by simp only [Prog.privObj, h1, Prog.obj, h2]
  rw [hpriv] at h
  simp only at h
  split at h
  · cases h
  rename_i r2 u hu
  obtain ⟨rfl, hr2⟩ := obj_ok hu
  have hview : ∀ p, view (w.heap ++ [o.update u]) (.ref w.heap.length) p =
      updatedView f (view w.heap (.ref r2)) p := by
    intro p
    cases p with
    | nil =>
      simp only [view, List.getElem?_concat_length, updatedView, ← h3 [], h2, hr2]
      simp only [Dict.update]
      rw [keys_updateList _ u.nodup]
      have : u.keys = u.entries.map Prod.fst := rfl
      rw [this]
      congr 3
      apply List.filter_congr
      intro x _
      simp only [decide_eq_decide]
    | cons k p =>
      simp only [view, List.getElem?_concat_length, updatedView, ← h3 (k :: p), h2, hr2]
      rw [Dict.get?_update]
      cases hk : u.get? k with
      | none =>
        simp only [Option.orElse_none, if_true]
        cases hk2 : o.get? k with
        | none => rfl
        | some y => exact view_append hs.range p y (hs.range r o h2 k y hk2)
      | some y =>
        have hin := hs.range r2 u hr2 k y hk
        simp only [Option.orElse_some]
        have hne : view w.heap y [] ≠ none := by
          cases y with
          | atom n => simp [view]
          | ref s =>
            have hlt : s < w.heap.length := hin
            simp [view, List.getElem?_eq_getElem hlt]
        rw [if_neg hne]
        exact view_append hs.range p y hin
  split at h
  · rename_i hemp
    injection h with h; subst h
    rw [shows_iff]
    refine ⟨r, o, by simp, h2, fun p => ?_⟩
    have hu0 : u.entries = [] := by simpa using hemp
    have : o.update u = o := by unfold Dict.update Dict.updateList; rw [hu0]; rfl
    rw [← hview p, this]
    cases p with
    | nil => simp only [view, List.getElem?_concat_length, h2]
    | cons k p =>
      simp only [view, List.getElem?_concat_length, h2]
      cases hk : o.get? k with
      | none => rfl
      | some y => exact (view_append hs.range p y (hs.range r o h2 k y hk)).symm
  · simp only [Prog.newExtras, Prog.obj, List.getElem?_concat_length] at h
    injection h with h; subst h
    rw [shows_iff]
    refine ⟨(w.heap ++ [o.update u]).length + w.heap.length,
      movedObj (w.heap ++ [o.update u]).length (o.update u), by simp, ?_, fun p => ?_⟩
    · simp only [deepcopy]
      rw [List.getElem?_append_right (by omega), List.getElem?_map]
      have : (w.heap ++ [o.update u]).length + w.heap.length - (w.heap ++ [o.update u]).length =
        w.heap.length := by omega
      rw [this, List.getElem?_concat_length]; rfl
    · rw [← hview p]
      exact view_deepcopy (w.heap ++ [o.update u]) p (.ref w.heap.length) (.ref w.heap.length)

/-- C108: a new part of speech shows the features it was given. -/
theorem C108_pos_stored {w w' : Prog} (hw : w.Reached) {x : Arg} {v : PyVal} (hf : w.FlatFeats (.mkPos x))
    (hv : w.arg x = .ok v) (h : w.exec (.mkPos x) = .ok w') :
    w'.ShowsFeats w.poses.length (view w.heap v) := by
  obtain ⟨own, hs⟩ := hw.separated
  obtain ⟨own', hs', _⟩ := hs.step (fun _ => hf) h
  rw [showsFeats_iff hs']
  simp only [Prog.exec, hv] at h
  split at h
  · cases h
  rename_i r o ho
  injection h with h; subst h
  obtain ⟨rfl, hr⟩ := obj_ok ho
  refine ⟨w.heap.length, o, by simp, by simp, fun p => ?_⟩
  cases p with
  | nil => simp only [view, List.getElem?_concat_length, hr]
  | cons k p =>
    simp only [view, List.getElem?_concat_length, hr]
    cases hk : o.get? k with
    | none => rfl
    | some y => exact view_append hs.range p y (hs.range r o hr k y hk)

/-- C108: a part of speech shows the same features for ever, provided the dictionaries given to parts
of speech hold immutable values. -/
theorem C108_pos_fixed {w : Prog} (hw : w.Reached) {i : Nat} {f : List Str → Option Found}
    (h : w.ShowsFeats i f) {more : List Op} (hm : w.FlatRun more) : (w.run more).ShowsFeats i f := by
  obtain ⟨own, hs⟩ := hw.separated
  obtain ⟨own', hs', hk⟩ := hs.run more (fun _ => hm)
  rw [showsFeats_iff hs] at h
  rw [showsFeats_iff hs']
  obtain ⟨r, o, h1, h2, h3⟩ := h
  have hp : ValOk own w.heap.length .priv (.ref r) := hs.poses r (List.mem_of_getElem? h1)
  refine ⟨r, o, ?_, by rw [hk.heap r hp.1 hp.2]; exact h2, fun p => ?_⟩
  · obtain ⟨t, ht⟩ := hk.poses
    rw [← ht, List.getElem?_append_left (List.getElem?_eq_some_iff.mp h1).1]; exact h1
  · rw [view_keeps hs hk p _ hp]; exact h3 p

/-- C108: the proviso is needed: a part of speech built from a dictionary that holds a mutable object
shows later changes of that object. -/
theorem C108_pos_shared : ∃ (ops more : List Op) (p : List Str) (f g : Option Found),
    (∃ F, (Prog.initial.run ops).ShowsFeats 0 F ∧ F p = f) ∧
    (∃ G, ((Prog.initial.run ops).run more).ShowsFeats 0 G ∧ G p = g) ∧ f ≠ g := by
  refine ⟨[.create [], .create [(['k'], .var 0)], .mkPos (.var 1)], [.assign (.var 0) [(['a'], .lit 1)]],
    [['k']], some (.keys []), some (.keys [['a']]), ⟨_, ⟨_, _, rfl, rfl, fun p => rfl⟩, by decide +kernel⟩,
    ⟨_, ⟨_, _, rfl, rfl, fun p => rfl⟩, by decide +kernel⟩, by decide⟩

namespace Demo

/-- `inner = {}; d = {'k': inner}; e = TokenExtras(d); inner['a'] = 1; e['k']['a'] = 2`. -/
def aliasOps : List Op :=
  [.create [], .create [(['k'], .var 0)], .mkExtras (.var 1), .assign (.var 0) [(['a'], .lit 1)],
   .item 0 ['k'], .assign (.var 2) [(['a'], .lit 2)], .create [(['n'], .lit 5)], .update 0 (.var 3),
   .mkPos (.var 3)]

/-- A run meeting the hypotheses: the extras show what they were created with, the updated extras
have the new key as well. -/
example : (∃ F, (Prog.initial.run aliasOps).Shows 0 F ∧ F [] = some (.keys [['k']]) ∧
      F [['k']] = some (.keys [])) ∧
    (∃ F, (Prog.initial.run aliasOps).Shows 1 F ∧ F [] = some (.keys [['k'], ['n']]) ∧
      F [['n']] = some (.value 5)) ∧
    (∃ F, (Prog.initial.run aliasOps).ShowsFeats 0 F ∧ F [['n']] = some (.value 5)) :=
  ⟨⟨_, ⟨_, _, rfl, rfl, fun _ => rfl⟩, by decide +kernel, by decide +kernel⟩,
   ⟨_, ⟨_, _, rfl, rfl, fun _ => rfl⟩, by decide +kernel, by decide +kernel⟩,
   ⟨_, ⟨_, _, rfl, rfl, fun _ => rfl⟩, by decide +kernel⟩⟩

/-- A state meeting the hypotheses of `C108_pos_stored` and a run meeting those of `C108_pos_fixed`. -/
example : (Prog.initial.run [.create [(['n'], .lit 5)]]).Reached ∧
    (Prog.initial.run [.create [(['n'], .lit 5)]]).FlatRun
      [.mkPos (.var 0), .feats 0, .assign (.var 1) []] := by
  refine ⟨⟨[.create [(['n'], .lit 5)]], ⟨trivial, trivial⟩, rfl⟩, ⟨?_, ?_⟩⟩
  · intro v r o h1 h2 k y hy
    have e1 : PyVal.ref 0 = v := Except.ok.inj h1
    subst e1
    have e2 : (0, Dict.ofList [(['n'], PyVal.atom 5)]) = (r, o) := Except.ok.inj h2
    injection e2 with _ e2
    subst e2
    have := ofList_get?_mem hy
    rw [List.mem_singleton] at this
    injection this with _ h
    exact ⟨5, h⟩
  · exact ⟨trivial, ⟨trivial, trivial⟩⟩

end Demo

end Verif
