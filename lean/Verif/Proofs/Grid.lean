import Verif.Spec.Grid
import Verif.Proofs.PyLemmas
import Mathlib.Data.Set.Basic

/-! # Proofs about grid search: dictionaries in the heap -/

namespace Verif

/-- `v` stands for the tree `j`, all of whose dictionaries are at different addresses in `F`. -/
inductive Rep (h : Heap) : Set Nat → HVal → Json → Prop
  | atom {F : Set Nat} {s : Str} : Rep h F (.atom s) (.atom s)
  | obj {F : Set Nat} {a : Nat} {d : List (Str × HVal)} {l : List (Str × Json)} (fp : Str → Set Nat) :
      h[a]? = some d → a ∈ F → d.map Prod.fst = l.map Prod.fst → (l.map Prod.fst).Nodup →
      (∀ k, fp k ⊆ F) → (∀ k, a ∉ fp k) → (∀ k k', k ≠ k' → ∀ x, x ∈ fp k → x ∉ fp k') →
      (∀ k v j, assocGet k d = some v → assocGet k l = some j → Rep h (fp k) v j) →
      Rep h F (.ref a) (.obj l)

theorem Rep.frame {h h' : Heap} {F : Set Nat} {v : HVal} {j : Json} (r : Rep h F v j)
    (hf : ∀ x ∈ F, h'[x]? = h[x]?) : Rep h' F v j := by
  induction r with
  | atom => exact .atom
  | obj fp h1 h2 h3 h4 h5 h6 h7 _ ih =>
    exact .obj fp ((hf _ h2).trans h1) h2 h3 h4 h5 h6 h7
      (fun k v j e1 e2 => ih k v j e1 e2 (fun x hx => hf x (h5 k hx)))

theorem Rep.mono {h : Heap} {F F' : Set Nat} {v : HVal} {j : Json} (r : Rep h F v j) (hf : F ⊆ F') : Rep h F' v j := by
  cases r with
  | atom => exact .atom
  | obj fp h1 h2 h3 h4 h5 h6 h7 h8 => exact .obj fp h1 (hf h2) h3 h4 (fun k => (h5 k).trans hf) h6 h7 h8

theorem assocGet_some_iff {V : Type} {k : Str} {l : List (Str × V)} : (∃ v, assocGet k l = some v) ↔ k ∈ l.map Prod.fst := by
  induction l with
  | nil => simp [assocGet]
  | cons e l ih =>
    simp only [assocGet, List.map_cons, List.mem_cons]
    by_cases h : e.1 = k
    · simp [h]
    · simp only [h, if_false, ih]
      constructor
      · exact fun h => .inr h
      · rintro (h1 | h1)
        · exact absurd h1.symm h
        · exact h1

theorem assocSet_keys_of_mem {V : Type} {k : Str} {v : V} {l : List (Str × V)} (h : k ∈ l.map Prod.fst) :
    (assocSet k v l).map Prod.fst = l.map Prod.fst := by
  rw [assocSet_keys, if_pos h]

/-- The state of the merge loop: `done` are the keys that have been merged, `T` is the present tree. -/
structure MInv (h0 h : Heap) (a : Nat) (A B : List (Str × Json)) (FA FB : Str → Set Nat) (done : Str → Prop)
    (d : List (Str × HVal)) (T : List (Str × Json)) : Prop where
  node : h[a]? = some d
  dkeys : d.map Prod.fst = A.map Prod.fst
  keys : T.map Prod.fst = A.map Prod.fst
  rep : ∀ k v j, assocGet k d = some v → assocGet k T = some j → Rep h (FA k ∪ FB k) v j
  meet : DictsMeet A B → ∀ k v j, assocGet k d = some v → assocGet k T = some j → Rep h (FA k) v j
  todo : ∀ k, ¬ done k → assocGet k T = assocGet k A ∧
    ∀ v j, assocGet k d = some v → assocGet k A = some j → Rep h (FA k) v j
  frame : ∀ x, x ≠ a → (∀ k, x ∉ FA k) → h[x]? = h0[x]?
  known : ∀ k, done k → k ∈ A.map Prod.fst
  repl : ∀ k v w, done k → assocGet k A = some v → assocGet k B = some w → ¬ (v.IsObj ∧ w.IsObj) → assocGet k T = some w
  both : ∀ k x y, done k → assocGet k A = some (.obj x) → assocGet k B = some (.obj y) →
    ∃ z, assocGet k T = some (.obj z) ∧ Overrides x y z

/-- What `mergeInto` does to two separate trees. -/
def MergeSpec (n : Nat) : Prop := ∀ (h : Heap) (a g : Nat) (A B : List (Str × Json)) (F G : Set Nat),
  Rep h F (.ref a) (.obj A) → Rep h G (.ref g) (.obj B) → (∀ x ∈ F, x ∉ G) → Fits n (.obj B) →
  (mergeInto n h a g = .error .value ∧ Missing A B) ∨
  ∃ h' C, mergeInto n h a g = .ok h' ∧ Overrides A B C ∧ Rep h' (F ∪ G) (.ref a) (.obj C) ∧
    (DictsMeet A B → Rep h' F (.ref a) (.obj C)) ∧ ∀ x, x ∉ F → h'[x]? = h[x]?

theorem mergeIntoKey_spec {n : Nat} (ih : MergeSpec n) {h0 h : Heap} {a g : Nat} {A B : List (Str × Json)}
    {F G : Set Nat} {FA FB : Str → Set Nat} {done : Str → Prop} {d gd : List (Str × HVal)} {T : List (Str × Json)}
    (hA : (A.map Prod.fst).Nodup) (hB : (B.map Prod.fst).Nodup)
    (inv : MInv h0 h a A B FA FB done d T) (hFa : a ∈ F)
    (hFA : ∀ k, FA k ⊆ F) (hFA' : ∀ k, a ∉ FA k) (hFd : ∀ k k', k ≠ k' → ∀ x, x ∈ FA k → x ∉ FA k')
    (hg0 : h0[g]? = some gd) (hgG : g ∈ G) (hgk : gd.map Prod.fst = B.map Prod.fst)
    (hFB : ∀ k, FB k ⊆ G)
    (hgr : ∀ k v j, assocGet k gd = some v → assocGet k B = some j → Rep h0 (FB k) v j)
    (hFG : ∀ x ∈ F, x ∉ G) (hfit : ∀ e ∈ B, Fits n e.2) {k : Str} (hk : k ∈ B.map Prod.fst) (hnd : ¬ done k) :
    (mergeIntoKey (mergeInto n) a g h k = .error .value ∧ Missing A B) ∨
    ∃ h' d' T', mergeIntoKey (mergeInto n) a g h k = .ok h' ∧ MInv h0 h' a A B FA FB (fun x => done x ∨ x = k) d' T' := by
  have hout : ∀ x ∈ G, h[x]? = h0[x]? := by
    intro x hx
    refine inv.frame x ?_ ?_
    · rintro rfl; exact hFG _ hFa hx
    · intro k hxk; exact hFG _ (hFA k hxk) hx
  have hgh : h[g]? = some gd := (hout g hgG).trans hg0
  have hgr' : ∀ k v j, assocGet k gd = some v → assocGet k B = some j → Rep h (FB k) v j :=
    fun k v j e1 e2 => (hgr k v j e1 e2).frame (fun x hx => hout x (hFB k hx))
  unfold mergeIntoKey Heap.dict
  rw [inv.node]
  simp only
  cases hd : assocGet k d with
  | none =>
    left
    refine ⟨rfl, .key hk ?_⟩
    rw [← inv.dkeys, ← assocGet_some_iff, hd]; simp
  | some hv =>
    have hkA : k ∈ A.map Prod.fst := by rw [← inv.dkeys, ← assocGet_some_iff]; exact ⟨_, hd⟩
    obtain ⟨jA, hjA⟩ := assocGet_some_iff.2 hkA
    have hTA := (inv.todo k hnd).1
    have hrv : Rep h (FA k) hv jA := (inv.todo k hnd).2 hv jA hd hjA
    obtain ⟨gv, hgv⟩ := assocGet_some_iff.2 (hgk ▸ hk)
    obtain ⟨jB, hjB⟩ := assocGet_some_iff.2 hk
    have hrg : Rep h (FB k) gv jB := hgr' k gv jB hgv hjB
    have hkT : k ∈ T.map Prod.fst := by rw [inv.keys]; exact hkA
    rw [hgh]
    simp only [hgv]
    have halen : a < h.length := (List.getElem?_eq_some_iff.1 inv.node).1
    -- replacing the value
    have hset : ¬ (jA.IsObj ∧ jB.IsObj) → (DictsMeet A B → Rep h (FA k) gv jB) →
        MInv h0 (h.set a (assocSet k gv d)) a A B FA FB (fun x => done x ∨ x = k) (assocSet k gv d) (assocSet k jB T) := by
      intro hno hmeet
      have hfr : ∀ x, x ≠ a → (h.set a (assocSet k gv d))[x]? = h[x]? := by
        intro x hx; rw [List.getElem?_set_ne (Ne.symm hx)]
      have hG : ∀ k' x, x ∈ FB k' → x ≠ a := by
        rintro k' x hx rfl; exact hFG _ hFa (hFB k' hx)
      have hFA2 : ∀ k' x, x ∈ FA k' → x ≠ a := by
        rintro k' x hx rfl; exact hFA' k' hx
      refine ⟨by rw [List.getElem?_set_self halen], by rw [assocSet_keys_of_mem (inv.dkeys ▸ hkA), inv.dkeys],
        by rw [assocSet_keys_of_mem hkT, inv.keys], ?_, ?_, ?_, ?_, ?_, ?_, ?_⟩
      · intro k' v j e1 e2
        rw [assocGet_set] at e1 e2
        by_cases hkk : k' = k
        · subst hkk
          simp only [if_true, Option.some.injEq] at e1 e2
          subst e1; subst e2
          exact (hrg.mono Set.subset_union_right).frame (fun x hx => hfr x (hx.elim (hFA2 _ x) (hG _ x)))
        · simp only [hkk, if_false] at e1 e2
          exact (inv.rep k' v j e1 e2).frame (fun x hx => hfr x (hx.elim (hFA2 _ x) (hG _ x)))
      · intro hm k' v j e1 e2
        rw [assocGet_set] at e1 e2
        by_cases hkk : k' = k
        · subst hkk
          simp only [if_true, Option.some.injEq] at e1 e2
          subst e1; subst e2
          exact (hmeet hm).frame (fun x hx => hfr x (hFA2 _ x hx))
        · simp only [hkk, if_false] at e1 e2
          exact (inv.meet hm k' v j e1 e2).frame (fun x hx => hfr x (hFA2 _ x hx))
      · intro k' hk'
        have hkk : k' ≠ k := fun e => hk' (.inr e)
        have := inv.todo k' (fun e => hk' (.inl e))
        refine ⟨by rw [assocGet_set, if_neg hkk]; exact this.1, ?_⟩
        intro v j e1 e2
        rw [assocGet_set, if_neg hkk] at e1
        exact (this.2 v j e1 e2).frame (fun x hx => hfr x (hFA2 _ x hx))
      · intro x hx1 hx2
        rw [hfr x hx1]; exact inv.frame x hx1 hx2
      · rintro k' (hk' | rfl)
        · exact inv.known k' hk'
        · exact hkA
      · rintro k' v w hk' e1 e2 e3
        rw [assocGet_set]
        by_cases hkk : k' = k
        · subst hkk
          rw [hjB] at e2; rw [if_pos rfl]; exact e2
        · rw [if_neg hkk]
          exact inv.repl k' v w (hk'.resolve_right hkk) e1 e2 e3
      · rintro k' x y hk' e1 e2
        rw [assocGet_set]
        by_cases hkk : k' = k
        · subst hkk
          rw [hjA] at e1; rw [hjB] at e2
          injection e1 with e1; injection e2 with e2
          subst e1; subst e2
          exact absurd ⟨trivial, trivial⟩ hno
        · rw [if_neg hkk]
          exact inv.both k' x y (hk'.resolve_right hkk) e1 e2
    cases hrv with
    | atom =>
      right
      refine ⟨_, _, _, rfl, hset (fun h => h.1) ?_⟩
      rintro ⟨hm, _⟩
      cases hrg with
      | atom => exact .atom
      | obj => exact absurd (hm k _ _ hjA hjB) (fun h => h)
    | @obj _ a' d' l' fp q1 q2 q3 q4 q5 q6 q7 q8 =>
      cases hrg with
      | atom =>
        right
        exact ⟨_, _, _, rfl, hset (fun h => h.2) (fun _ => .atom)⟩
      | @obj _ b' e' m' fp' p1 p2 p3 p4 p5 p6 p7 p8 =>
        simp only
        have hm : (k, Json.obj m') ∈ B := assocGet_mem hjB
        rcases ih h a' b' l' m' (FA k) (FB k) (.obj fp q1 q2 q3 q4 q5 q6 q7 q8) (.obj fp' p1 p2 p3 p4 p5 p6 p7 p8)
          (fun x hx hx' => hFG x (hFA k hx) (hFB k hx')) (hfit _ hm) with ⟨e1, e2⟩ | ⟨h', C, e1, e2, e3, e4, e5⟩
        · exact .inl ⟨e1, .sub hjA hjB e2⟩
        · right
          refine ⟨h', d, assocSet k (.obj C) T, e1, ?_⟩
          have hother : ∀ k', k' ≠ k → ∀ x ∈ FA k' ∪ FB k', h'[x]? = h[x]? := by
            intro k' hkk x hx
            apply e5
            rcases hx with hx | hx
            · exact hFd k' k hkk x hx
            · exact fun hx' => hFG x (hFA k hx') (hFB k' hx)
          refine ⟨by rw [e5 a (hFA' k)]; exact inv.node, inv.dkeys, by rw [assocSet_keys_of_mem hkT, inv.keys], ?_, ?_, ?_, ?_, ?_, ?_, ?_⟩
          · intro k' v j f1 f2
            rw [assocGet_set] at f2
            by_cases hkk : k' = k
            · subst hkk
              rw [if_pos rfl] at f2
              rw [hd] at f1
              injection f1 with f1; injection f2 with f2
              subst f1; subst f2
              exact e3
            · rw [if_neg hkk] at f2
              exact (inv.rep k' v j f1 f2).frame (hother k' hkk)
          · intro hmeet k' v j f1 f2
            rw [assocGet_set] at f2
            by_cases hkk : k' = k
            · subst hkk
              rw [if_pos rfl] at f2
              rw [hd] at f1
              injection f1 with f1; injection f2 with f2
              subst f1; subst f2
              cases hmeet with
              | mk _ hsub => exact e4 (hsub _ _ _ hjA hjB)
            · rw [if_neg hkk] at f2
              exact (inv.meet hmeet k' v j f1 f2).frame (fun x hx => hother k' hkk x (.inl hx))
          · intro k' hk'
            have hkk : k' ≠ k := fun e => hk' (.inr e)
            have := inv.todo k' (fun e => hk' (.inl e))
            refine ⟨by rw [assocGet_set, if_neg hkk]; exact this.1, ?_⟩
            intro v j f1 f2
            exact (this.2 v j f1 f2).frame (fun x hx => hother k' hkk x (.inl hx))
          · intro x hx1 hx2
            rw [e5 x (hx2 k)]; exact inv.frame x hx1 hx2
          · rintro k' (hk' | rfl)
            · exact inv.known k' hk'
            · exact hkA
          · rintro k' v w hk' f1 f2 f3
            by_cases hkk : k' = k
            · subst hkk
              rw [hjA] at f1; rw [hjB] at f2
              injection f1 with f1; injection f2 with f2
              subst f1; subst f2
              exact absurd ⟨trivial, trivial⟩ f3
            · rw [assocGet_set, if_neg hkk]
              exact inv.repl k' v w (hk'.resolve_right hkk) f1 f2 f3
          · rintro k' x y hk' f1 f2
            rw [assocGet_set]
            by_cases hkk : k' = k
            · subst hkk
              rw [hjA] at f1; rw [hjB] at f2
              injection f1 with f1; injection f2 with f2
              injection f1 with f1; injection f2 with f2
              subst f1; subst f2
              exact ⟨C, by rw [if_pos rfl], e2⟩
            · rw [if_neg hkk]
              exact inv.both k' x y (hk'.resolve_right hkk) f1 f2

theorem mergeLoop_spec {n : Nat} (ih : MergeSpec n) {h0 : Heap} {a g : Nat} {A B : List (Str × Json)}
    {F G : Set Nat} {FA FB : Str → Set Nat} {gd : List (Str × HVal)}
    (hA : (A.map Prod.fst).Nodup) (hB : (B.map Prod.fst).Nodup) (hFa : a ∈ F)
    (hFA : ∀ k, FA k ⊆ F) (hFA' : ∀ k, a ∉ FA k) (hFd : ∀ k k', k ≠ k' → ∀ x, x ∈ FA k → x ∉ FA k')
    (hg0 : h0[g]? = some gd) (hgG : g ∈ G) (hgk : gd.map Prod.fst = B.map Prod.fst)
    (hFB : ∀ k, FB k ⊆ G)
    (hgr : ∀ k v j, assocGet k gd = some v → assocGet k B = some j → Rep h0 (FB k) v j)
    (hFG : ∀ x ∈ F, x ∉ G) (hfit : ∀ e ∈ B, Fits n e.2) (ks : List Str) :
    ∀ (h : Heap) (done : Str → Prop) (d : List (Str × HVal)) (T : List (Str × Json)),
    MInv h0 h a A B FA FB done d T → (∀ k ∈ ks, k ∈ B.map Prod.fst) → ks.Nodup → (∀ k ∈ ks, ¬ done k) →
    (forM' (mergeIntoKey (mergeInto n) a g) h ks = .error .value ∧ Missing A B) ∨
    ∃ h' d' T', forM' (mergeIntoKey (mergeInto n) a g) h ks = .ok h' ∧
      MInv h0 h' a A B FA FB (fun x => done x ∨ x ∈ ks) d' T' := by
  induction ks with
  | nil =>
    intro h done d T inv _ _ _
    right
    refine ⟨h, d, T, rfl, ?_⟩
    simpa using inv
  | cons k ks ihk =>
    intro h done d T inv hks hnd hdone
    rw [forM']
    rcases mergeIntoKey_spec ih hA hB inv hFa hFA hFA' hFd hg0 hgG hgk hFB hgr hFG hfit (hks k (by simp))
      (hdone k (by simp)) with ⟨e1, e2⟩ | ⟨h1, d1, T1, e1, e2⟩
    · left; rw [e1]; exact ⟨rfl, e2⟩
    · rw [e1]
      rw [List.nodup_cons] at hnd
      have := ihk h1 _ d1 T1 e2 (fun k hk => hks k (by simp [hk])) hnd.2 (by
        rintro k' hk' (h | rfl)
        · exact hdone k' (by simp [hk']) h
        · exact hnd.1 hk')
      have he : (fun x => (done x ∨ x = k) ∨ x ∈ ks) = (fun x => done x ∨ x ∈ k :: ks) := by
        funext x; simp only [List.mem_cons, or_assoc]
      rw [he] at this
      exact this

theorem assocGet_none_iff {V : Type} {k : Str} {l : List (Str × V)} : assocGet k l = none ↔ k ∉ l.map Prod.fst := by
  rw [← assocGet_some_iff]
  cases assocGet k l <;> simp

theorem mergeSpec (n : Nat) : MergeSpec n := by
  induction n with
  | zero =>
    intro h a g A B F G _ _ _ hf
    exact absurd hf (by simp [Fits])
  | succ n ih =>
    intro h a g A B F G ra rg hFG hf
    cases ra with
    | @obj _ _ d _ fp q1 q2 q3 q4 q5 q6 q7 q8 =>
      cases rg with
      | @obj _ _ gd _ fp' p1 p2 p3 p4 p5 p6 p7 p8 =>
        have hfit : ∀ e ∈ B, Fits n e.2 := by simpa [Fits] using hf
        have inv0 : MInv h h a A B fp fp' (fun _ => False) d A := by
          refine ⟨q1, q3, rfl, ?_, ?_, ?_, ?_, ?_, ?_, ?_⟩
          · exact fun k v j e1 e2 => (q8 k v j e1 e2).mono Set.subset_union_left
          · exact fun _ k v j e1 e2 => q8 k v j e1 e2
          · exact fun k _ => ⟨rfl, fun v j e1 e2 => q8 k v j e1 e2⟩
          · exact fun _ _ _ => rfl
          · exact fun k h => h.elim
          · exact fun k v w h => h.elim
          · exact fun k v w h => h.elim
        rw [mergeInto, Heap.dict, p1]
        simp only
        rcases mergeLoop_spec ih q4 p4 q2 q5 q6 q7 p1 p2 p3 p5 p8 hFG hfit (gd.map Prod.fst) h _ d A inv0
          (fun k hk => p3 ▸ hk) (p3 ▸ p4) (fun _ _ h => h) with e | ⟨h', d', T', e1, inv⟩
        · exact .inl e
        · right
          have hsub : ∀ k, k ∈ B.map Prod.fst → k ∈ A.map Prod.fst := fun k hk => inv.known k (.inr (p3 ▸ hk))
          have hnodup : (T'.map Prod.fst).Nodup := inv.keys ▸ q4
          refine ⟨h', T', e1, ?_, ?_, ?_, ?_⟩
          · refine .mk inv.keys hsub ?_ ?_ ?_ ?_
            · intro k hk
              exact (inv.todo k (by rintro (h | h); exacts [h, hk (p3 ▸ h)])).1
            · intro k v w e1 e2
              exact inv.repl k v w (.inr (p3 ▸ assocGet_some_iff.1 ⟨_, e2⟩)) e1 e2
            · intro k x y e1 e2
              obtain ⟨z, hz, _⟩ := inv.both k x y (.inr (p3 ▸ assocGet_some_iff.1 ⟨_, e2⟩)) e1 e2
              exact ⟨z, hz⟩
            · intro k x y z e1 e2 e3
              obtain ⟨z', hz, ho⟩ := inv.both k x y (.inr (p3 ▸ assocGet_some_iff.1 ⟨_, e2⟩)) e1 e2
              rw [e3] at hz; injection hz with hz; injection hz with hz; subst hz; exact ho
          · refine .obj (fun k => fp k ∪ fp' k) inv.node (.inl q2) (by rw [inv.dkeys, inv.keys]) hnodup ?_ ?_ ?_ inv.rep
            · exact fun k => Set.union_subset_union (q5 k) (p5 k)
            · rintro k (h | h)
              · exact q6 k h
              · exact hFG a q2 (p5 k h)
            · rintro k k' hkk x (h | h) (h1 | h1)
              · exact q7 k k' hkk x h h1
              · exact hFG x (q5 k h) (p5 k' h1)
              · exact hFG x (q5 k' h1) (p5 k h)
              · exact p7 k k' hkk x h h1
          · intro hm
            exact .obj fp inv.node q2 (by rw [inv.dkeys, inv.keys]) hnodup q5 q6 q7 (inv.meet hm)
          · intro x hx
            exact inv.frame x (fun e => hx (e ▸ q2)) (fun k hk => hx (q5 k hk))

end Verif
