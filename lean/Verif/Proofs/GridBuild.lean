import Verif.Proofs.Grid

/-! # Proofs about grid search: loading, copying and combining -/

namespace Verif

/-- The addresses from `lo` on below `hi`. -/
def Between (lo hi : Nat) : Set Nat := fun x => lo ≤ x ∧ x < hi

/-- Nothing that exists in `h` differs in `h'`. -/
def Grows (h h' : Heap) : Prop := h.length ≤ h'.length ∧ ∀ x, x < h.length → h'[x]? = h[x]?

theorem Grows.refl (h : Heap) : Grows h h := ⟨le_rfl, fun _ _ => rfl⟩

theorem Grows.trans {h h' h'' : Heap} (a : Grows h h') (b : Grows h' h'') : Grows h h'' :=
  ⟨a.1.trans b.1, fun x hx => (b.2 x (lt_of_lt_of_le hx a.1)).trans (a.2 x hx)⟩

theorem Grows.append (h e : Heap) : Grows h (h ++ e) :=
  ⟨by simp, fun x hx => List.getElem?_append_left hx⟩

theorem Rep.bounded {h : Heap} {F : Set Nat} {v : HVal} {j : Json} (r : Rep h F v j) :
    Rep h (fun x => x ∈ F ∧ x < h.length) v j := by
  induction r with
  | atom => exact .atom
  | @obj F a d l fp h1 h2 h3 h4 h5 h6 h7 _ ih =>
    refine .obj (fun k x => x ∈ fp k ∧ x < h.length) h1 ⟨h2, (List.getElem?_eq_some_iff.1 h1).1⟩ h3 h4 ?_ ?_ ?_ ih
    · exact fun k x hx => ⟨h5 k hx.1, hx.2⟩
    · exact fun k hx => h6 k hx.1
    · exact fun k k' hk x hx hx' => h7 k k' hk x hx.1 hx'.1

theorem Rep.grows {h h' : Heap} {F : Set Nat} {v : HVal} {j : Json} (r : Rep h F v j) (g : Grows h h') :
    Rep h' (fun x => x ∈ F ∧ x < h.length) v j :=
  r.bounded.frame (fun x hx => g.2 x hx.2)

/-- The entries `d` of a dictionary stand for the entries `l`; their dictionaries are at separate addresses
from `lo` on below `hi`. -/
def EntriesRep (h : Heap) (lo hi : Nat) (d : List (Str × HVal)) (l : List (Str × Json)) : Prop :=
  ∃ fp : Str → Set Nat, d.map Prod.fst = l.map Prod.fst ∧ (∀ k, fp k ⊆ Between lo hi) ∧
    (∀ k k', k ≠ k' → ∀ x, x ∈ fp k → x ∉ fp k') ∧
    ∀ k v j, assocGet k d = some v → assocGet k l = some j → Rep h (fp k) v j

theorem EntriesRep.nil (h : Heap) (lo hi : Nat) : EntriesRep h lo hi [] [] :=
  ⟨fun _ => ∅, rfl, fun _ _ hx => hx.elim, fun _ _ _ _ hx => hx.elim, fun _ _ _ e => by simp [assocGet] at e⟩

theorem EntriesRep.cons {h : Heap} {lo mid hi : Nat} {d : List (Str × HVal)} {l : List (Str × Json)} {k : Str}
    {v : HVal} {j : Json} (h1 : lo ≤ mid) (h2 : mid ≤ hi) (r : Rep h (Between lo mid) v j)
    (rs : EntriesRep h mid hi d l) : EntriesRep h lo hi ((k, v) :: d) ((k, j) :: l) := by
  obtain ⟨fp, q1, q2, q3, q4⟩ := rs
  refine ⟨fun k' => if k = k' then Between lo mid else fp k', by simp [q1], ?_, ?_, ?_⟩
  · intro k' x hx
    simp only at hx
    by_cases hk : k = k'
    · rw [if_pos hk] at hx; exact ⟨hx.1, lt_of_lt_of_le hx.2 h2⟩
    · rw [if_neg hk] at hx; exact ⟨h1.trans (q2 k' hx).1, (q2 k' hx).2⟩
  · intro k1 k2 hkk x hx hx'
    simp only at hx hx'
    by_cases hk1 : k = k1
    · rw [if_pos hk1] at hx
      rw [if_neg (fun e => hkk (hk1.symm.trans e))] at hx'
      exact absurd (q2 k2 hx').1 (not_le.2 hx.2)
    · rw [if_neg hk1] at hx
      by_cases hk2 : k = k2
      · rw [if_pos hk2] at hx'
        exact absurd (q2 k1 hx).1 (not_le.2 hx'.2)
      · rw [if_neg hk2] at hx'
        exact q3 k1 k2 hkk x hx hx'
  · intro k' v' j' e1 e2
    simp only [assocGet] at e1 e2
    by_cases hk : k = k'
    · simp only [hk, if_true, Option.some.injEq] at e1 e2 ⊢
      subst e1; subst e2; exact r
    · simp only [hk, if_false] at e1 e2 ⊢
      exact q4 k' v' j' e1 e2

theorem EntriesRep.frame {h h' : Heap} {lo hi : Nat} {d : List (Str × HVal)} {l : List (Str × Json)}
    (rs : EntriesRep h lo hi d l) (hf : ∀ x, x ∈ Between lo hi → h'[x]? = h[x]?) : EntriesRep h' lo hi d l := by
  obtain ⟨fp, q1, q2, q3, q4⟩ := rs
  exact ⟨fp, q1, q2, q3, fun k v j e1 e2 => (q4 k v j e1 e2).frame (fun x hx => hf x (q2 k hx))⟩

theorem EntriesRep.close {h : Heap} {lo : Nat} {d : List (Str × HVal)} {l : List (Str × Json)}
    (rs : EntriesRep h lo h.length d l) (hlo : lo ≤ h.length) (hn : (l.map Prod.fst).Nodup) :
    Rep (h ++ [d]) (Between lo (h ++ [d]).length) (.ref h.length) (.obj l) := by
  obtain ⟨fp, q1, q2, q3, q4⟩ := rs
  have hl : (h ++ [d]).length = h.length + 1 := by simp
  refine .obj fp (by simp) ?_ q1 hn ?_ ?_ q3 ?_
  · rw [hl]; exact ⟨hlo, Nat.lt_succ_self _⟩
  · intro k x hx; rw [hl]; exact ⟨(q2 k hx).1, Nat.lt_succ_of_lt (q2 k hx).2⟩
  · intro k hx; exact absurd (q2 k hx).2 (lt_irrefl _)
  · intro k v j e1 e2
    exact (q4 k v j e1 e2).frame (fun x hx => List.getElem?_append_left (q2 k hx).2)

/-! ### Loading -/

theorem allocEntries_spec {l : List (Str × Json)}
    (ih : ∀ e ∈ l, ∀ h, Grows h (e.2.alloc h).2 ∧ Rep (e.2.alloc h).2 (Between h.length (e.2.alloc h).2.length) (e.2.alloc h).1 e.2) :
    ∀ h, Grows h (allocEntries l h).2 ∧ EntriesRep (allocEntries l h).2 h.length (allocEntries l h).2.length
      (allocEntries l h).1 l := by
  induction l with
  | nil => intro h; simp only [allocEntries]; exact ⟨.refl h, .nil _ _ _⟩
  | cons e l ihl =>
    obtain ⟨k, v⟩ := e
    intro h
    simp only [allocEntries]
    obtain ⟨g1, r1⟩ := ih (k, v) (by simp) h
    obtain ⟨g2, r2⟩ := ihl (fun e he => ih e (by simp [he])) (v.alloc h).2
    refine ⟨g1.trans g2, .cons g1.1 g2.1 ?_ r2⟩
    exact r1.frame (fun x hx => g2.2 x hx.2)

theorem alloc_spec {j : Json} (hw : j.WF) : ∀ h, Grows h (j.alloc h).2 ∧
    Rep (j.alloc h).2 (Between h.length (j.alloc h).2.length) (j.alloc h).1 j := by
  induction hw with
  | atom s => intro h; simp only [Json.alloc]; exact ⟨.refl h, .atom⟩
  | @obj l hn _ ih =>
    intro h
    simp only [Json.alloc]
    obtain ⟨g, r⟩ := allocEntries_spec ih h
    exact ⟨g.trans (.append _ _), r.close g.1 hn⟩

/-! ### Copying -/

theorem rep_entries {h : Heap} {d : List (Str × HVal)} {l : List (Str × Json)} {fp : Str → Set Nat}
    (hk : d.map Prod.fst = l.map Prod.fst) (hn : (l.map Prod.fst).Nodup)
    (hr : ∀ k v j, assocGet k d = some v → assocGet k l = some j → Rep h (fp k) v j) :
    List.Forall₂ (fun e p => e.1 = p.1 ∧ Rep h (fp p.1) e.2 p.2) d l := by
  induction d generalizing l with
  | nil =>
    cases l with
    | nil => exact .nil
    | cons p l => simp at hk
  | cons e d ih =>
    cases l with
    | nil => simp at hk
    | cons p l =>
      simp only [List.map_cons, List.cons.injEq] at hk
      rw [List.map_cons, List.nodup_cons] at hn
      refine .cons ⟨hk.1, hr p.1 e.2 p.2 (by simp [assocGet, hk.1]) (by simp [assocGet])⟩ (ih hk.2 hn.2 ?_)
      intro k v j e1 e2
      have hne : p.1 ≠ k := by rintro rfl; exact hn.1 (assocGet_some_iff.1 ⟨_, e2⟩)
      refine hr k v j ?_ ?_
      · simp only [assocGet, hk.1, hne, if_false]; exact e1
      · simp only [assocGet, hne, if_false]; exact e2

theorem copyEntries_spec {n : Nat}
    (ih : ∀ (h : Heap) F v j, Rep h F v j → Fits n j → ∃ v' h', deepCopy n h v = .ok (v', h') ∧ Grows h h' ∧
      Rep h' (Between h.length h'.length) v' j) {d : List (Str × HVal)} {l : List (Str × Json)} :
    ∀ (h : Heap) (acc : List (Str × HVal)),
    List.Forall₂ (fun e p => e.1 = p.1 ∧ (∃ F, Rep h F e.2 p.2) ∧ Fits n p.2) d l →
    ∃ d' h', forM' (copyEntry (deepCopy n)) (acc, h) d = .ok (acc ++ d', h') ∧ Grows h h' ∧
      EntriesRep h' h.length h'.length d' l := by
  induction d generalizing l with
  | nil =>
    intro h acc hf
    cases hf
    exact ⟨[], h, by simp [forM'], .refl h, .nil _ _ _⟩
  | cons e d ihd =>
    intro h acc hf
    cases hf with
    | @cons _ p _ l' h1 h2 =>
      obtain ⟨he, ⟨F, hr⟩, hfit⟩ := h1
      obtain ⟨v', h1, c1, g1, r1⟩ := ih h F e.2 p.2 hr hfit
      have hrest : List.Forall₂ (fun e p => e.1 = p.1 ∧ (∃ F, Rep h1 F e.2 p.2) ∧ Fits n p.2) d l' :=
        h2.imp (fun _ _ ⟨a, ⟨F, b⟩, c⟩ => ⟨a, ⟨_, b.grows g1⟩, c⟩)
      obtain ⟨d', h2', c2, g2, r2⟩ := ihd h1 (acc ++ [(e.1, v')]) hrest
      refine ⟨(p.1, v') :: d', h2', ?_, g1.trans g2, ?_⟩
      · rw [forM', copyEntry, c1]
        simp only
        rw [c2, he]; simp
      · exact .cons g1.1 g2.1 (r1.frame (fun x hx => g2.2 x hx.2)) r2

theorem deepCopy_spec (n : Nat) : ∀ (h : Heap) F v j, Rep h F v j → Fits n j →
    ∃ v' h', deepCopy n h v = .ok (v', h') ∧ Grows h h' ∧ Rep h' (Between h.length h'.length) v' j := by
  induction n with
  | zero =>
    intro h F v j hr hf
    cases hr with
    | atom => exact ⟨_, h, by rw [deepCopy], .refl h, .atom⟩
    | obj => exact absurd hf (by simp [Fits])
  | succ n ih =>
    intro h F v j hr hf
    cases hr with
    | atom => exact ⟨_, h, by rw [deepCopy], .refl h, .atom⟩
    | @obj _ a d l fp h1 h2 h3 h4 h5 h6 h7 h8 =>
      have hfit : ∀ e ∈ l, Fits n e.2 := by simpa [Fits] using hf
      have hall : List.Forall₂ (fun e p => e.1 = p.1 ∧ (∃ F, Rep h F e.2 p.2) ∧ Fits n p.2) d l := by
        have hr := rep_entries h3 h4 h8
        rw [List.forall₂_iff_get] at hr ⊢
        refine ⟨hr.1, fun i h1 h2 => ?_⟩
        obtain ⟨a, b⟩ := hr.2 i h1 h2
        exact ⟨a, ⟨_, b⟩, hfit _ (List.get_mem _ _)⟩
      obtain ⟨d', h', c, g, r⟩ := copyEntries_spec ih h [] hall
      refine ⟨.ref h'.length, h' ++ [d'], ?_, g.trans (.append _ _), r.close g.1 h4⟩
      rw [deepCopy, Heap.dict, h1]
      simp only
      rw [c]; simp

/-! ### Reading back -/

theorem readBack_spec (n : Nat) : ∀ (h : Heap) F v j, Rep h F v j → Fits n j → readBack n h v = .ok j := by
  induction n with
  | zero =>
    intro h F v j hr hf
    cases hr with
    | atom => rw [readBack]
    | obj => exact absurd hf (by simp [Fits])
  | succ n ih =>
    intro h F v j hr hf
    cases hr with
    | atom => rw [readBack]
    | @obj _ a d l fp h1 h2 h3 h4 h5 h6 h7 h8 =>
      have hfit : ∀ e ∈ l, Fits n e.2 := by simpa [Fits] using hf
      have hm : mapM' (readEntry (readBack n h)) d = .ok l := by
        rw [mapM'_ok_iff]
        have hr := rep_entries h3 h4 h8
        rw [List.forall₂_iff_get] at hr ⊢
        refine ⟨hr.1, fun i h1 h2 => ?_⟩
        obtain ⟨a, b⟩ := hr.2 i h1 h2
        rw [readEntry, ih h _ _ _ b (hfit _ (List.get_mem _ _)), a]
      rw [readBack, Heap.dict, h1]
      simp only
      rw [hm]

/-! ### Overriding -/

theorem Overrides.cases' {a b c : List (Str × Json)} (o : Overrides a b c) {k : Str} {x : Json}
    (hx : assocGet k c = some x) :
    (k ∉ b.map Prod.fst ∧ assocGet k a = some x) ∨ assocGet k b = some x ∨
    ∃ u w z, assocGet k a = some (.obj u) ∧ assocGet k b = some (.obj w) ∧ x = .obj z ∧ Overrides u w z := by
  cases o with
  | mk h1 h2 h3 h4 h5 h6 =>
    by_cases hk : k ∈ b.map Prod.fst
    · obtain ⟨v, hv⟩ := assocGet_some_iff.2 (h2 k hk)
      obtain ⟨w, hw⟩ := assocGet_some_iff.2 hk
      by_cases hb : v.IsObj ∧ w.IsObj
      · cases v with
        | atom => exact absurd hb.1 (fun h => h)
        | obj u =>
          cases w with
          | atom => exact absurd hb.2 (fun h => h)
          | obj w =>
            obtain ⟨z, hz⟩ := h5 k u w hv hw
            rw [hx] at hz; injection hz with hz
            exact .inr (.inr ⟨u, w, z, hv, hw, hz, h6 k u w z hv hw (hz ▸ hx)⟩)
      · have := h4 k v w hv hw hb
        rw [hx] at this; injection this with this
        exact .inr (.inl (this ▸ hw))
    · exact .inl ⟨hk, (h3 k hk) ▸ hx⟩

theorem Json.WF.nodup {l : List (Str × Json)} (h : (Json.obj l).WF) : (l.map Prod.fst).Nodup := by
  cases h with | obj h _ => exact h

theorem Json.WF.get {l : List (Str × Json)} (h : (Json.obj l).WF) {k : Str} {v : Json} (hv : assocGet k l = some v) : v.WF := by
  cases h with | obj _ h => exact h _ (assocGet_mem hv)

theorem Fits.get {n : Nat} {l : List (Str × Json)} (h : Fits (n + 1) (.obj l)) {k : Str} {v : Json} (hv : assocGet k l = some v) : Fits n v := by
  have h' : ∀ e ∈ l, Fits n e.2 := by simpa [Fits] using h
  exact h' _ (assocGet_mem hv)

theorem Overrides.wf {a b c : List (Str × Json)} (o : Overrides a b c) (ha : (Json.obj a).WF) (hb : (Json.obj b).WF) :
    (Json.obj c).WF := by
  induction o with
  | @mk a b c h1 h2 h3 h4 h5 h6 ih =>
    have hn : (c.map Prod.fst).Nodup := h1 ▸ ha.nodup
    refine .obj hn (fun e he => ?_)
    have hx : assocGet e.1 c = some e.2 := assocGet_of_mem hn he
    rcases (Overrides.mk h1 h2 h3 h4 h5 h6).cases' hx with ⟨_, h⟩ | h | ⟨u, w, z, q1, q2, q3, q4⟩
    · exact ha.get h
    · exact hb.get h
    · rw [q3]
      exact ih e.1 u w z q1 q2 (q3 ▸ hx) (ha.get q1) (hb.get q2)

theorem Overrides.fits {n : Nat} {a b c : List (Str × Json)} (o : Overrides a b c) (ha : (Json.obj a).WF)
    (fa : Fits n (.obj a)) (fb : Fits n (.obj b)) : Fits n (.obj c) := by
  induction n generalizing a b c with
  | zero => exact absurd fa (by simp [Fits])
  | succ n ih =>
    have hn : (c.map Prod.fst).Nodup := by
      cases o with | mk h1 => exact h1 ▸ ha.nodup
    have : ∀ e ∈ c, Fits n e.2 := by
      intro e he
      have hx : assocGet e.1 c = some e.2 := assocGet_of_mem hn he
      rcases o.cases' hx with ⟨_, h⟩ | h | ⟨u, w, z, q1, q2, q3, q4⟩
      · exact fa.get h
      · exact fb.get h
      · rw [q3]
        exact ih q4 (ha.get q1) (fa.get q1) (fb.get q2)
    simpa [Fits] using this

theorem OverridesAll.fits {n : Nat} {a c : List (Str × Json)} {bs : List (List (Str × Json))} (o : OverridesAll a bs c)
    (ha : (Json.obj a).WF) (hb : ∀ b ∈ bs, (Json.obj b).WF) (fa : Fits n (.obj a)) (fb : ∀ b ∈ bs, Fits n (.obj b)) :
    Fits n (.obj c) := by
  induction o with
  | nil => exact fa
  | cons h _ ih =>
    exact ih (h.wf ha (hb _ (by simp))) (fun b hm => hb b (by simp [hm])) (h.fits ha fa (fb _ (by simp)))
      (fun b hm => fb b (by simp [hm]))

/-! ### Combining -/

theorem mergeAll_spec {n a : Nat} {F : Set Nat} {m : Nat} (hF : ∀ x ∈ F, m ≤ x) {gs : List HVal}
    {bs : List (List (Str × Json))} : ∀ {h : Heap} {A : List (Str × Json)},
    Rep h F (.ref a) (.obj A) →
    List.Forall₂ (fun g b => ∃ G, Rep h G g (.obj b) ∧ ∀ x ∈ G, x < m) gs bs →
    (∀ b ∈ bs, Fits n (.obj b)) → DictsMeetAll A bs →
    (forM' (mergeOne n (.ref a)) h gs = .error .value ∧ MissingAll A bs) ∨
    ∃ h' C, forM' (mergeOne n (.ref a)) h gs = .ok h' ∧ OverridesAll A bs C ∧ Rep h' F (.ref a) (.obj C) ∧
      ∀ x, x ∉ F → h'[x]? = h[x]? := by
  induction gs generalizing bs with
  | nil =>
    intro h A hr hg _ _
    cases hg
    exact .inr ⟨h, A, rfl, .nil A, hr, fun _ _ => rfl⟩
  | cons g gs ih =>
    intro h A hr hg hfit hmeet
    cases hg with
    | @cons _ b _ bs h1 h2 =>
      obtain ⟨G, hG, hGm⟩ := h1
      cases hmeet with
      | cons hm hrest =>
        have hFG : ∀ x ∈ F, x ∉ G := fun x hx hx' => absurd (hF x hx) (not_le.2 (hGm x hx'))
        cases hG with
        | @obj _ ga gd _ fp p1 p2 p3 p4 p5 p6 p7 p8 =>
          rw [forM', mergeOne]
          rcases mergeSpec n h a ga A b F G hr (.obj fp p1 p2 p3 p4 p5 p6 p7 p8) hFG (hfit _ (by simp)) with
            ⟨e1, e2⟩ | ⟨h', C, e1, e2, _, e4, e5⟩
          · left; rw [e1]; exact ⟨rfl, .here e2⟩
          · rw [e1]
            simp only
            have hlow : ∀ x, x < m → h'[x]? = h[x]? := fun x hx => e5 x (fun hx' => absurd (hF x hx') (not_le.2 hx))
            rcases ih (e4 hm) (h2.imp (fun _ _ ⟨G, r, q⟩ => ⟨G, r.frame (fun x hx => hlow x (q x hx)), q⟩))
              (fun b hb => hfit b (by simp [hb])) (hrest C e2) with ⟨f1, f2⟩ | ⟨h'', D, f1, f2, f3, f4⟩
            · exact .inl ⟨f1, .later e2 f2⟩
            · exact .inr ⟨h'', D, f1, .cons e2 f2, f3, fun x hx => (f4 x hx).trans (e5 x hx)⟩

theorem buildOne_spec {n : Nat} {h : Heap} {P : Set Nat} {pv : HVal} {A : List (Str × Json)} {acc : List HVal}
    {gs : List HVal} {bs : List (List (Str × Json))} (hp : Rep h P pv (.obj A)) (fa : Fits n (.obj A))
    (hg : List.Forall₂ (fun g b => ∃ G, Rep h G g (.obj b)) gs bs) (hfit : ∀ b ∈ bs, Fits n (.obj b))
    (hm : DictsMeetAll A bs) :
    (buildOne n pv (acc, h) gs = .error .value ∧ MissingAll A bs) ∨
    ∃ h' r C F, buildOne n pv (acc, h) gs = .ok (acc ++ [r], h') ∧ OverridesAll A bs C ∧ Grows h h' ∧
      Rep h' F r (.obj C) := by
  obtain ⟨v', h1, c1, g1, r1⟩ := deepCopy_spec n h P pv (.obj A) hp fa
  rw [buildOne, c1]
  simp only
  obtain ⟨a, rfl⟩ : ∃ a, v' = .ref a := by cases r1; exact ⟨_, rfl⟩
  have hg1 : List.Forall₂ (fun g b => ∃ G, Rep h1 G g (.obj b) ∧ ∀ x ∈ G, x < h.length) gs bs :=
    hg.imp (fun _ _ ⟨G, r⟩ => ⟨_, r.grows g1, fun x hx => hx.2⟩)
  rcases mergeAll_spec (F := Between h.length h1.length) (m := h.length) (fun x hx => hx.1) r1 hg1 hfit hm with
    ⟨e1, e2⟩ | ⟨h', C, e1, e2, e3, e4⟩
  · left; rw [e1]; exact ⟨rfl, e2⟩
  · right
    rw [e1]
    refine ⟨h', .ref a, C, _, rfl, e2, ?_, e3⟩
    have hlow : ∀ x, x < h.length → h'[x]? = h[x]? := fun x hx =>
      (e4 x (fun hx' => absurd hx'.1 (not_le.2 hx))).trans (g1.2 x hx)
    refine ⟨?_, hlow⟩
    by_contra hc
    have := hlow h'.length (not_le.1 hc)
    rw [List.getElem?_eq_none le_rfl, eq_comm, List.getElem?_eq_none_iff] at this
    omega

theorem buildList_spec {n : Nat} {P : Set Nat} {pv : HVal} {A : List (Str × Json)} (fa : Fits n (.obj A))
    {gss : List (List HVal)} {bss : List (List (List (Str × Json)))} :
    ∀ {h : Heap} {acc : List HVal} {done : List (List (List (Str × Json)))}, Rep h P pv (.obj A) →
    List.Forall₂ (List.Forall₂ (fun g b => ∃ G, Rep h G g (.obj b))) gss bss →
    (∀ bs ∈ bss, ∀ b ∈ bs, Fits n (.obj b)) → (∀ bs ∈ bss, DictsMeetAll A bs) →
    List.Forall₂ (fun bs r => ∃ C F, OverridesAll A bs C ∧ Rep h F r (.obj C)) done acc →
    (forM' (buildOne n pv) (acc, h) gss = .error .value ∧ ∃ bs ∈ bss, MissingAll A bs) ∨
    ∃ h' rs, forM' (buildOne n pv) (acc, h) gss = .ok (rs, h') ∧
      List.Forall₂ (fun bs r => ∃ C F, OverridesAll A bs C ∧ Rep h' F r (.obj C)) (done ++ bss) rs := by
  induction gss generalizing bss P with
  | nil =>
    intro h acc done hp hg _ _ hdone
    cases hg
    exact .inr ⟨h, acc, rfl, by simpa using hdone⟩
  | cons gs gss ih =>
    intro h acc done hp hg hfit hm hdone
    cases hg with
    | @cons _ bs _ bss h1 h2 =>
      rw [forM']
      rcases buildOne_spec (acc := acc) hp fa h1 (hfit bs (by simp)) (hm bs (by simp)) with ⟨e1, e2⟩ | ⟨h', r, C, F, e1, e2, e3, e4⟩
      · left; rw [e1]; exact ⟨rfl, bs, by simp, e2⟩
      · rw [e1]
        simp only
        have := ih (bss := bss) (done := done ++ [bs]) (acc := acc ++ [r]) (hp.grows e3)
          (h2.imp (fun _ _ h => h.imp (fun _ _ ⟨G, r⟩ => ⟨_, r.grows e3⟩)))
          (fun bs hb => hfit bs (by simp [hb])) (fun bs hb => hm bs (by simp [hb]))
          (List.rel_append (hdone.imp (fun _ _ ⟨C, F, o, r⟩ => ⟨C, _, o, r.grows e3⟩)) (.cons ⟨C, F, e2, e4⟩ .nil))
        rcases this with ⟨f1, bs', f2, f3⟩ | ⟨h'', rs, f1, f2⟩
        · exact .inl ⟨f1, bs', by simp [f2], f3⟩
        · exact .inr ⟨h'', rs, f1, by simpa using f2⟩

theorem allocList_spec {vs : List Json} (hw : ∀ v ∈ vs, v.WF) : ∀ h, Grows h (allocList vs h).2 ∧
    List.Forall₂ (fun g v => ∃ G, Rep (allocList vs h).2 G g v) (allocList vs h).1 vs := by
  induction vs with
  | nil => intro h; exact ⟨.refl h, .nil⟩
  | cons v vs ih =>
    intro h
    simp only [allocList]
    obtain ⟨g1, r1⟩ := alloc_spec (hw v (by simp)) h
    obtain ⟨g2, r2⟩ := ih (fun v hv => hw v (by simp [hv])) (v.alloc h).2
    exact ⟨g1.trans g2, .cons ⟨_, r1.grows g2⟩ r2⟩

theorem allocGrid_spec {ls : List (List Json)} (hw : ∀ l ∈ ls, ∀ v ∈ l, v.WF) : ∀ h, Grows h (allocGrid ls h).2 ∧
    List.Forall₂ (List.Forall₂ (fun g v => ∃ G, Rep (allocGrid ls h).2 G g v)) (allocGrid ls h).1 ls := by
  induction ls with
  | nil => intro h; exact ⟨.refl h, .nil⟩
  | cons l ls ih =>
    intro h
    simp only [allocGrid]
    obtain ⟨g1, r1⟩ := allocList_spec (hw l (by simp)) h
    obtain ⟨g2, r2⟩ := ih (fun l hl => hw l (by simp [hl])) (allocList l h).2
    exact ⟨g1.trans g2, .cons (r1.imp (fun _ _ ⟨G, r⟩ => ⟨_, r.grows g2⟩)) r2⟩

theorem product_rel {α β : Type} {R : α → β → Prop} {as : List (List α)} {bs : List (List β)}
    (h : List.Forall₂ (List.Forall₂ R) as bs) : List.Forall₂ (List.Forall₂ R) (product as) (product bs) := by
  induction h with
  | nil => exact .cons .nil .nil
  | @cons a b as bs h1 _ ih =>
    simp only [product]
    induction h1 with
    | nil => exact .nil
    | @cons x y a b hxy _ ih2 =>
      rw [List.flatMap_cons, List.flatMap_cons]
      refine List.rel_append ?_ ih2
      rw [List.forall₂_map_left_iff, List.forall₂_map_right_iff]
      exact ih.imp (fun _ _ h => .cons hxy h)

theorem mem_product {α : Type} {ls : List (List α)} {c : List α} : c ∈ product ls ↔ List.Forall₂ (· ∈ ·) c ls := by
  induction ls generalizing c with
  | nil => simp [product, List.forall₂_nil_right_iff]
  | cons l ls ih =>
    simp only [product, List.mem_flatMap, List.mem_map, ih, List.forall₂_cons_right_iff]
    constructor
    · rintro ⟨x, hx, c', hc, rfl⟩; exact ⟨x, c', hx, hc, rfl⟩
    · rintro ⟨x, c', hx, hc, rfl⟩; exact ⟨x, hx, c', hc, rfl⟩

theorem gridParams_spec {n : Nat} {grid : List (Str × List (List (Str × Json)))} {A : List (Str × Json)}
    (hA : (Json.obj A).WF) (hG : ∀ e ∈ grid, ∀ b ∈ e.2, (Json.obj b).WF) (fA : Fits n (.obj A))
    (fG : ∀ e ∈ grid, ∀ b ∈ e.2, Fits n (.obj b)) (hm : ∀ bs ∈ product (grid.map Prod.snd), DictsMeetAll A bs) :
    (gridParams n (grid.map fun e => (e.1, e.2.map Json.obj)) (.obj A) = .error .value ∧
      ∃ bs ∈ product (grid.map Prod.snd), MissingAll A bs) ∨
    ∃ rs, gridParams n (grid.map fun e => (e.1, e.2.map Json.obj)) (.obj A) = .ok (rs.map Json.obj) ∧
      List.Forall₂ (OverridesAll A) (product (grid.map Prod.snd)) rs := by
  have hvals : (grid.map fun e => (e.1, e.2.map Json.obj)).map Prod.snd = (grid.map Prod.snd).map (List.map Json.obj) := by
    simp [List.map_map, Function.comp_def]
  unfold gridParams
  rw [hvals]
  obtain ⟨g1, r1⟩ := allocGrid_spec (ls := (grid.map Prod.snd).map (List.map Json.obj)) (by
    intro l hl v hv
    obtain ⟨l', hl', rfl⟩ := List.mem_map.1 hl
    obtain ⟨e, he, rfl⟩ := List.mem_map.1 hl'
    obtain ⟨b, hb, rfl⟩ := List.mem_map.1 hv
    exact hG e he b hb) []
  set gh := allocGrid ((grid.map Prod.snd).map (List.map Json.obj)) [] with hgh
  obtain ⟨g2, r2⟩ := alloc_spec hA gh.2
  have r1' : List.Forall₂ (List.Forall₂ (fun g b => ∃ G, Rep (Json.alloc (.obj A) gh.2).2 G g (.obj b))) gh.1 (grid.map Prod.snd) := by
    rw [List.forall₂_map_right_iff] at r1
    refine r1.imp (fun _ _ h => ?_)
    rw [List.forall₂_map_right_iff] at h
    exact h.imp (fun _ _ ⟨G, r⟩ => ⟨_, r.grows g2⟩)
  have hmem : ∀ bs ∈ product (grid.map Prod.snd), ∀ b ∈ bs, ∃ e ∈ grid, b ∈ e.2 := by
    intro bs hbs
    rw [mem_product] at hbs
    clear hm r1' fG hG hvals g1 r1 g2 r2 hgh gh
    generalize hl : grid.map Prod.snd = ls at hbs
    induction hbs generalizing grid with
    | nil => simp
    | @cons x l bs ls hx _ ih =>
      cases grid with
      | nil => simp at hl
      | cons e grid =>
        simp only [List.map_cons, List.cons.injEq] at hl
        obtain ⟨rfl, rfl⟩ := hl
        intro b hb
        rcases List.mem_cons.1 hb with rfl | hb
        · exact ⟨e, by simp, hx⟩
        · obtain ⟨e', he', hb'⟩ := ih rfl b hb
          exact ⟨e', by simp [he'], hb'⟩
  have fits : ∀ bs ∈ product (grid.map Prod.snd), ∀ b ∈ bs, Fits n (.obj b) := by
    intro bs hbs b hb
    obtain ⟨e, he, hb'⟩ := hmem bs hbs b hb
    exact fG e he b hb'
  rcases buildList_spec fA r2 (product_rel r1') fits hm (acc := []) (done := []) .nil with ⟨e1, e2⟩ | ⟨h', rs, e1, e2⟩
  · left
    rw [buildList, e1]; exact ⟨rfl, e2⟩
  · right
    rw [buildList, e1]
    simp only
    rw [List.nil_append] at e2
    have : ∃ cs : List (List (Str × Json)), List.Forall₂ (OverridesAll A) (product (grid.map Prod.snd)) cs ∧
        List.Forall₂ (fun r c => ∃ F, Rep h' F r (.obj c)) rs cs := by
      clear e1 hm r1' r1 hmem fits
      generalize product (grid.map Prod.snd) = bss at e2
      induction e2 with
      | nil => exact ⟨[], .nil, .nil⟩
      | cons h _ ih =>
        obtain ⟨C, F, o, r⟩ := h
        obtain ⟨cs, i1, i2⟩ := ih
        exact ⟨C :: cs, .cons o i1, .cons ⟨F, r⟩ i2⟩
    obtain ⟨cs, i1, i2⟩ := this
    refine ⟨cs, ?_, i1⟩
    rw [mapM'_ok_iff, List.forall₂_map_right_iff]
    have hfit : ∀ c ∈ cs, Fits n (.obj c) := by
      intro c hc
      obtain ⟨i, hi, rfl⟩ := List.mem_iff_getElem.1 hc
      have hi' : i < (product (grid.map Prod.snd)).length := i1.length_eq ▸ hi
      have ho := (List.forall₂_iff_get.1 i1).2 i hi' hi
      have hb := List.getElem_mem hi'
      refine ho.fits hA ?_ fA (fits _ hb)
      intro b hb'
      obtain ⟨e, he, hb''⟩ := hmem _ hb b hb'
      exact hG e he b hb''
    rw [List.forall₂_iff_get] at i2 ⊢
    refine ⟨i2.1, fun i h1 h2 => ?_⟩
    obtain ⟨F, r⟩ := i2.2 i h1 h2
    exact readBack_spec n h' F _ _ r (hfit _ (List.get_mem _ _))

end Verif
