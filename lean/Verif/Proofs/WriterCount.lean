import Mathlib.Data.List.Chain
import Verif.Proofs.Rows
import Verif.Spec.WordLines

/-!
# How many word lines the writer produces
-/

namespace Verif

/-- The number of tokens waiting for their line. -/
def WState.waiting (st : WState) : Nat :=
  match st.pending with
  | none => 0
  | some (_, _, g) => g.length

/-- The writer state has written `n` word lines; the tokens `done` were handed to it, and it holds the
ones at the end that belong to a multiword token. -/
structure WCount (T : Token → Prop) (done : List Token) (st : WState) (n : Nat) : Prop where
  out : ∃ ls : List (Option (List Str)), st.out = ls.flatMap lineText ∧ (∀ r, some r ∈ ls → GoodRow r) ∧
    (ls.filter fun l => l.any isWordRow).length = n
  all : ∀ t ∈ done, T t
  idle : st.pending = none → ∀ u, done.getLast? = some u → ∀ f ∈ done, f.isMultiword = true → f.coincides u = false
  busy : ∀ i f g, st.pending = some (i, f, g) → 0 < i ∧ f ∈ done ∧ f.isMultiword = true ∧
    g = done.filter (f.coincides ·) ∧ ∃ u, done.getLast? = some u ∧ f.coincides u = true

theorem coincides_iff {a b : Token} : a.coincides b = true ↔ a.start = b.start ∧ a.stop = b.stop := by
  simp [Token.coincides]

theorem WCount.waiting_eq {T : Token → Prop} {done : List Token} {st : WState} {n : Nat} (h : WCount T done st n) :
    st.waiting = repeatedAt done := by
  unfold WState.waiting repeatedAt
  cases hp : st.pending with
  | none =>
    have hi := h.idle hp
    cases hu : done.getLast? with
    | none => simp
    | some u =>
      have hi := hi u hu
      symm
      simp only [Option.any_some, List.length_eq_zero_iff, List.filter_eq_nil_iff, Bool.and_eq_true, List.any_eq_true]
      rintro t ht ⟨_, f, hf, hf1, hf2⟩
      rw [hi f hf hf1] at hf2
      cases hf2
  | some p =>
    obtain ⟨i, f, g⟩ := p
    obtain ⟨_, h2, h3, h4, u, h5, h6⟩ := h.busy i f g hp
    simp only [h4]
    congr 1
    apply List.filter_congr
    intro t ht
    rw [h5, Option.any_some]
    have : (done.any fun f => f.isMultiword && f.coincides u) = true := by
      rw [List.any_eq_true]
      exact ⟨f, h2, by simp [h3, h6]⟩
    rw [this, Bool.and_true]
    rw [coincides_iff] at h6
    rw [Bool.eq_iff_iff, coincides_iff, coincides_iff, h6.1, h6.2]

variable {cols : Cols} {text : Str} {T : Token → Prop}

theorem isWordRow_row {k : Nat} {t : Token} {b : Bool} : isWordRow (rowFields cols text k t b) = true := by
  have := natStr_not_mem (n := k + 1) (c := '-') (by decide)
  simpa [isWordRow, rowFields] using this

/-- Writing one word adds one line. -/
theorem out_regular (hT : ∀ t, T t → TokenPlain text t) {st st' : WState} {t : Token} {b : Bool} {n : Nat} (ht : T t)
    (ho : ∃ ls : List (Option (List Str)), st.out = ls.flatMap lineText ∧ (∀ r, some r ∈ ls → GoodRow r) ∧
      (ls.filter fun l => l.any isWordRow).length = n)
    (h : writeRegular cols text b st t = .ok st') :
    (∃ ls : List (Option (List Str)), st'.out = ls.flatMap lineText ∧ (∀ r, some r ∈ ls → GoodRow r) ∧
      (ls.filter fun l => l.any isWordRow).length = n + 1) ∧ st'.pending = st.pending := by
  unfold writeRegular at h
  split at h
  · cases h
  · rename_i r hr
    injection h with h
    subst h
    obtain ⟨_, rfl⟩ := isRow_iff.mp hr
    obtain ⟨ls, h1, h2, h3⟩ := ho
    refine ⟨⟨ls ++ [some (rowFields cols text st.index t b)], by simp [h1, lineText], ?_, ?_⟩, rfl⟩
    · intro r' hr'
      rcases List.mem_append.mp hr' with hr' | hr'
      · exact h2 r' hr'
      · simp at hr'; subst hr'; exact rowFields_good _ _ _ (hT t ht)
    · rw [List.filter_append, List.length_append, h3]
      simp [isWordRow_row]

theorem out_multiword (hT : ∀ t, T t → TokenPlain text t) {st st' : WState} {i : Nat} {f : Token} {g : List Token}
    {n : Nat} (hi : 0 < i) (hf : T f) (hg : ∀ t ∈ g, T t) (hgne : g ≠ [])
    (ho : ∃ ls : List (Option (List Str)), st.out = ls.flatMap lineText ∧ (∀ r, some r ∈ ls → GoodRow r) ∧
      (ls.filter fun l => l.any isWordRow).length = n)
    (h : writeMultiword cols text st i f g = .ok st') :
    (∃ ls : List (Option (List Str)), st'.out = ls.flatMap lineText ∧ (∀ r, some r ∈ ls → GoodRow r) ∧
      (ls.filter fun l => l.any isWordRow).length = n + g.length) ∧ st'.pending = st.pending := by
  have hlen := List.length_pos_iff.mpr hgne
  unfold writeMultiword at h
  have e : ((i : Nat) : Int) + (g.length : Nat) - 1 = ((i + g.length - 1 : Nat) : Int) := by omega
  rw [e, intStr_nat] at h
  have key : ∀ (g : List Token) (st : WState) (n : Nat), (∀ t ∈ g, T t) →
      (∃ ls : List (Option (List Str)), st.out = ls.flatMap lineText ∧ (∀ r, some r ∈ ls → GoodRow r) ∧
        (ls.filter fun l => l.any isWordRow).length = n) →
      forM' (writeRegular cols text false) st g = .ok st' →
      (∃ ls : List (Option (List Str)), st'.out = ls.flatMap lineText ∧ (∀ r, some r ∈ ls → GoodRow r) ∧
        (ls.filter fun l => l.any isWordRow).length = n + g.length) ∧ st'.pending = st.pending := by
    intro g
    induction g with
    | nil => intro st n _ ho h; cases h; exact ⟨ho, rfl⟩
    | cons t g ih =>
      intro st n hg ho h
      simp only [forM'] at h
      split at h
      · rename_i st1 h1
        obtain ⟨o1, p1⟩ := out_regular hT (hg t (by simp)) ho h1
        obtain ⟨o2, p2⟩ := ih st1 (n + 1) (fun x hx => hg x (by simp [hx])) o1 h
        refine ⟨?_, by rw [p2, p1]⟩
        rw [List.length_cons, show n + (g.length + 1) = n + 1 + g.length by omega]
        exact o2
      · cases h
  dsimp only at h
  obtain ⟨ls, h1, h2, h3⟩ := ho
  have hk := fun ho => key g _ n hg ho h
  refine hk ?_
  refine ⟨ls ++ [some [natStr i ++ '-' :: natStr (i + g.length - 1), docText text f,
    underscore, underscore, underscore, underscore, underscore, underscore, underscore,
    if spaceAfter text f then underscore else spaceAfterNo]], by simp only [h1, List.flatMap_append,
    List.flatMap_cons, List.flatMap_nil, List.append_nil, lineText], ?_, ?_⟩
  · intro r' hr'
    rcases List.mem_append.mp hr' with hr' | hr'
    · exact h2 r' hr'
    · simp only [List.mem_singleton, Option.some.injEq] at hr'; subst hr'; exact rangeRow_good i _ (hT f hf)
  · rw [List.filter_append, List.length_append, h3]
    simp [isWordRow]

/-- A token between two tokens of one span has that span. -/
theorem before_between {v u t : Token} (h1 : v = u ∨ Before v u) (h2 : Before u t) (h : v.coincides t = true) :
    u.coincides t = true ∧ u.sub < t.sub := by
  rw [coincides_iff] at h ⊢
  have l1 := u.lt
  have l2 := v.lt
  have l3 := t.lt
  unfold Before at h1 h2
  rcases h1 with rfl | h1 <;> omega

theorem last_before {done : List Token} {u v : Token} (hB : done.Pairwise Before) (hu : done.getLast? = some u)
    (hv : v ∈ done) : v = u ∨ Before v u := by
  obtain ⟨init, rfl⟩ := List.getLast?_eq_some_iff.mp hu
  rcases List.mem_append.mp hv with hv | hv
  · exact .inr ((List.pairwise_append.mp hB).2.2 v hv u (by simp))
  · exact .inl (by simpa using hv)

/-- Starting afresh with the token `t`. -/
theorem WCount.fresh (hT : ∀ t, T t → TokenPlain text t) {done : List Token} {st st' : WState} {t : Token} {n : Nat}
    (ht : T t) (hall : ∀ t ∈ done, T t)
    (ho : ∃ ls : List (Option (List Str)), st.out = ls.flatMap lineText ∧ (∀ r, some r ∈ ls → GoodRow r) ∧
      (ls.filter fun l => l.any isWordRow).length = n)
    (hreg : ∀ f ∈ done, f.isMultiword = true → f.coincides t = false)
    (hnew : t.isMultiword = true → ∀ f ∈ done, t.coincides f = false)
    (h : writeTokenRegular cols text st t = .ok st') :
    ∃ n', WCount T (done ++ [t]) st' n' ∧ n' + st'.waiting = n + 1 := by
  have hall' : ∀ x ∈ done ++ [t], T x := by
    intro x hx
    rcases List.mem_append.mp hx with hx | hx
    · exact hall x hx
    · simp at hx; subst hx; exact ht
  unfold writeTokenRegular at h
  split at h
  · rename_i hm
    injection h with h
    subst h
    refine ⟨n, ⟨ho, hall', by simp, ?_⟩, by simp [WState.waiting]⟩
    intro i f g e
    simp only [Option.some.injEq, Prod.mk.injEq] at e
    obtain ⟨rfl, rfl, rfl⟩ := e
    refine ⟨by omega, by simp, hm, ?_, t, by simp, by simp [Token.coincides]⟩
    rw [List.filter_append, List.filter_eq_nil_iff.mpr (by intro x hx; simp [hnew hm x hx])]
    simp [Token.coincides]
  · rename_i hm
    obtain ⟨o1, p1⟩ := out_regular hT ht (st := { st with pending := none }) ho h
    refine ⟨n + 1, ⟨o1, hall', ?_, ?_⟩, by simp only [WState.waiting, p1, Nat.add_zero]⟩
    · intro _ u hu f hf hfm
      rw [List.getLast?_concat, Option.some.injEq] at hu
      subst hu
      rcases List.mem_append.mp hf with hf | hf
      · exact hreg f hf hfm
      · simp at hf; subst hf; exact absurd hfm hm
    · intro i f g e
      rw [p1] at e; cases e

theorem WCount.token (hT : ∀ t, T t → TokenPlain text t) {done : List Token} {st st' : WState} {t : Token} {n : Nat}
    (hc : WCount T done st n) (ht : T t) (hB : (done ++ [t]).Pairwise Before) (hN : (done ++ [t]).IsChain NumberedAfter)
    (h : writeToken cols text st t = .ok st') :
    ∃ n', WCount T (done ++ [t]) st' n' ∧ n' + st'.waiting = n + st.waiting + 1 := by
  have hB1 := (List.pairwise_append.mp hB).1
  have hBt : ∀ v ∈ done, Before v t := fun v hv => (List.pairwise_append.mp hB).2.2 v hv t (by simp)
  have hbet : ∀ u, done.getLast? = some u → ∀ v ∈ done, v.coincides t = true →
      u.coincides t = true ∧ u.sub < t.sub := fun u hu v hv hvt =>
    before_between (last_before hB1 hu hv) (hBt u (List.mem_of_getLast? hu)) hvt
  have hNt : ∀ u, done.getLast? = some u → NumberedAfter u t := by
    intro u hu
    have := (List.isChain_append.mp hN).2.2
    exact this u (by simp [hu]) t (by simp)
  have hlast : ∀ v ∈ done, ∃ u, done.getLast? = some u := by
    intro v hv
    cases hu : done.getLast? with
    | none => rw [List.getLast?_eq_none_iff] at hu; subst hu; simp at hv
    | some u => exact ⟨u, rfl⟩
  unfold writeToken at h
  cases hp : st.pending with
  | none =>
    rw [hp] at h
    have hidle := hc.idle hp
    have hw : st.waiting = 0 := by simp [WState.waiting, hp]
    rw [hw]
    refine hc.out |> fun ho => WCount.fresh hT ht hc.all ho ?_ ?_ h
    · intro f hf hfm
      by_contra hcon
      simp only [Bool.not_eq_false] at hcon
      obtain ⟨u, hu⟩ := hlast f hf
      have h1 := (hbet u hu f hf hcon).1
      have h2 := hidle u hu f hf hfm
      rw [coincides_iff] at hcon h1
      have : f.coincides u = true := by rw [coincides_iff]; omega
      rw [h2] at this; cases this
    · intro hm f hf
      by_contra hcon
      simp only [Bool.not_eq_false] at hcon
      obtain ⟨u, hu⟩ := hlast f hf
      rw [coincides_iff] at hcon
      obtain ⟨h1, h2⟩ := hbet u hu f hf (by rw [coincides_iff]; omega)
      have hum : u.isMultiword = false := by
        by_contra hum
        simp only [Bool.not_eq_false] at hum
        have := hidle u hu u (List.mem_of_getLast? hu) hum
        simp [Token.coincides] at this
      have hr : u.repl = none := by simpa [Token.isMultiword] using hum
      have h0 := u.mwOk hr
      have := (hNt u hu hm).2 (by simp [hr])
      omega
  | some p =>
    obtain ⟨i, f, g⟩ := p
    rw [hp] at h
    obtain ⟨b1, b2, b3, b4, u, b5, b6⟩ := hc.busy i f g hp
    have hw : st.waiting = g.length := by simp [WState.waiting, hp]
    simp only at h
    split at h
    · rename_i hft
      injection h with h
      subst h
      refine ⟨n, ⟨hc.out, ?_, by simp, ?_⟩, by rw [hw]; simp [WState.waiting]; omega⟩
      · intro x hx
        rcases List.mem_append.mp hx with hx | hx
        · exact hc.all x hx
        · simp at hx; subst hx; exact ht
      · intro i' f' g' e
        simp only [Option.some.injEq, Prod.mk.injEq] at e
        obtain ⟨rfl, rfl, rfl⟩ := e
        refine ⟨b1, by simp [b2], b3, ?_, t, by simp, hft⟩
        rw [List.filter_append, ← b4]
        simp [hft]
    · rename_i hft
      split at h
      · cases h
      · rename_i st1 h1
        have hgne : g ≠ [] := by
          rw [b4]
          intro e
          rw [List.filter_eq_nil_iff] at e
          exact e f b2 (by simp [Token.coincides])
        obtain ⟨o1, _⟩ := out_multiword hT b1 (hc.all f b2) (fun x hx => hc.all x (by
          rw [b4] at hx; exact (List.mem_filter.mp hx).1)) hgne hc.out h1
        rw [hw]
        have hno : ∀ v ∈ done, v.coincides t = false := by
          intro v hv
          by_contra hcon
          simp only [Bool.not_eq_false] at hcon
          have := (hbet u b5 v hv hcon).1
          rw [coincides_iff] at this b6
          exact hft (by rw [coincides_iff]; omega)
        refine WCount.fresh hT ht hc.all o1 (fun v hv _ => hno v hv) (fun _ v hv => ?_) h
        have := hno v hv
        rw [← Bool.not_eq_true, coincides_iff] at this ⊢
        omega

theorem WCount.tokens (hT : ∀ t, T t → TokenPlain text t) {toks done : List Token} {st st' : WState} {n : Nat}
    (hc : WCount T done st n) (ht : ∀ t ∈ toks, T t) (hB : (done ++ toks).Pairwise Before)
    (hN : (done ++ toks).IsChain NumberedAfter) (h : forM' (writeToken cols text) st toks = .ok st') :
    ∃ n', WCount T (done ++ toks) st' n' ∧ n' + st'.waiting = n + st.waiting + toks.length := by
  induction toks generalizing done st n with
  | nil => cases h; exact ⟨n, by simpa using hc, by simp⟩
  | cons t toks ih =>
    simp only [forM'] at h
    split at h
    · rename_i st1 h1
      have e : done ++ t :: toks = (done ++ [t]) ++ toks := by simp
      obtain ⟨n1, c1, e1⟩ := hc.token hT (ht t (by simp)) (by rw [e] at hB; exact (List.pairwise_append.mp hB).1)
        (by rw [e] at hN; exact (List.isChain_append.mp hN).1) h1
      obtain ⟨n2, c2, e2⟩ := ih c1 (fun x hx => ht x (by simp [hx])) (by rw [← e]; exact hB) (by rw [← e]; exact hN) h
      refine ⟨n2, by rw [e]; exact c2, ?_⟩
      rw [List.length_cons]
      omega
    · cases h

theorem WCount.ended (hT : ∀ t, T t → TokenPlain text t) {done : List Token} {st st' : WState} {n : Nat}
    (hc : WCount T done st n) (h : writeEnd cols text st = .ok st') :
    WCount T done st' (n + st.waiting) ∧ st'.waiting = st.waiting := by
  have hsnoc : ∀ {o : Str} {n : Nat}, (∃ ls : List (Option (List Str)), o = ls.flatMap lineText ∧
      (∀ r, some r ∈ ls → GoodRow r) ∧ (ls.filter fun l => l.any isWordRow).length = n) →
      ∃ ls : List (Option (List Str)), o ++ ['\n'] = ls.flatMap lineText ∧
      (∀ r, some r ∈ ls → GoodRow r) ∧ (ls.filter fun l => l.any isWordRow).length = n := by
    rintro o n ⟨ls, h1, h2, h3⟩
    refine ⟨ls ++ [none], by simp [h1, lineText], ?_, by rw [List.filter_append]; simpa using h3⟩
    intro r hr
    rcases List.mem_append.mp hr with hr | hr
    · exact h2 r hr
    · simp at hr
  unfold writeEnd at h
  cases hp : st.pending with
  | none =>
    rw [hp] at h
    injection h with h
    subst h
    have hw : st.waiting = 0 := by simp [WState.waiting, hp]
    exact ⟨⟨by rw [hw]; exact hsnoc hc.out, hc.all, fun _ => hc.idle hp, by simp [hp]⟩, by rw [hw]; simp [WState.waiting, hp]⟩
  | some p =>
    obtain ⟨i, f, g⟩ := p
    rw [hp] at h
    obtain ⟨b1, b2, b3, b4, u, b5, b6⟩ := hc.busy i f g hp
    have hw : st.waiting = g.length := by simp [WState.waiting, hp]
    have hgne : g ≠ [] := by
      rw [b4]
      intro e
      rw [List.filter_eq_nil_iff] at e
      exact e f b2 (by simp [Token.coincides])
    simp only at h
    split at h
    · cases h
    · rename_i st1 h1
      injection h with h
      subst h
      obtain ⟨o1, p1⟩ := out_multiword hT b1 (hc.all f b2) (fun x hx => hc.all x (by
          rw [b4] at hx; exact (List.mem_filter.mp hx).1)) hgne hc.out h1
      refine ⟨⟨by rw [hw]; exact hsnoc o1, hc.all, ?_, ?_⟩, by simp [WState.waiting, p1]⟩
      · intro e; simp only [p1, hp] at e; cases e
      · intro i' f' g' e
        simp only [p1] at e
        exact hc.busy i' f' g' e

/-- The sentences `ss`, written after the tokens `done`: every token gets a line, and the tokens of the
multiword token at the end of each sentence but the last get another one. -/
theorem WCount.sentences (hT : ∀ t, T t → TokenPlain text t) {ss : List (List Token)} {done : List Token}
    {st st' : WState} {n : Nat} (hc : WCount T done st n) (ht : ∀ s ∈ ss, ∀ t ∈ s, T t)
    (hB : (done ++ ss.flatten).Pairwise Before) (hN : (done ++ ss.flatten).IsChain NumberedAfter)
    (hne : ss ≠ [])
    (h : forM' (writeSentence cols text) st ss = .ok st') :
    ∃ n', WCount T (done ++ ss.flatten) st' n' ∧
      n' = n + st.waiting + ss.flatten.length +
        ((List.range (ss.length - 1)).map fun k => repeatedAt (done ++ (ss.take (k + 1)).flatten)).sum := by
  induction ss generalizing done st n with
  | nil => exact absurd rfl hne
  | cons s ss ih =>
    simp only [forM'] at h
    split at h
    · rename_i st2 hs
      unfold writeSentence at hs
      split at hs
      · cases hs
      · rename_i st1 h1
        have e : done ++ (s :: ss).flatten = (done ++ s) ++ ss.flatten := by simp
        obtain ⟨n1, c1, e1⟩ := hc.tokens hT (ht s (by simp)) (by rw [e] at hB; exact (List.pairwise_append.mp hB).1)
          (by rw [e] at hN; exact (List.isChain_append.mp hN).1) h1
        obtain ⟨c2, w2⟩ := c1.ended hT hs
        cases hss : ss with
        | nil =>
          subst hss
          cases h
          refine ⟨_, by rw [e]; simpa using c2, ?_⟩
          simp
          omega
        | cons s' ss' =>
          obtain ⟨n3, c3, e3⟩ := ih c2 (fun x hx => ht x (by simp [hx])) (by rw [← e]; exact hB) (by rw [← e]; exact hN)
            (by simp [hss]) h
          rw [← hss]
          refine ⟨n3, by rw [e]; exact c3, ?_⟩
          have hl : ss.length = ss'.length + 1 := by simp [hss]
          have hw := c1.waiting_eq
          rw [e3, w2]
          rw [show (s :: ss).length - 1 = (ss.length - 1) + 1 by simp [hl], List.range_succ_eq_map, List.map_cons,
            List.map_map, List.sum_cons]
          have hm : (List.range (ss.length - 1)).map ((fun k => repeatedAt (done ++ ((s :: ss).take (k + 1)).flatten)) ∘ Nat.succ) =
              (List.range (ss.length - 1)).map fun k => repeatedAt (done ++ s ++ (ss.take (k + 1)).flatten) := by
            apply List.map_congr_left
            intro k _
            simp
          rw [hm]
          simp only [List.flatten_cons, List.length_append, Nat.zero_add, List.take_succ_cons, List.take_zero,
            List.flatten_nil, List.append_nil]
          omega
    · cases h

/-- The tokens of the first `k + 1` sentences. -/
theorem tiles_take {α : Type} (l : List α) {a n : Nat} {ss : List Sentence} (h : Tiles a ss n) (k : Nat) {s : Sentence}
    (hs : ss[k]? = some s) :
    a ≤ s.stop ∧ ((ss.take (k + 1)).map (fun s => slice l s.start s.stop)).flatten = slice l a s.stop := by
  induction ss generalizing a k with
  | nil => simp at hs
  | cons x ss ih =>
    simp only [Tiles] at h
    have hx := x.lt
    cases k with
    | zero =>
      simp only [List.getElem?_cons_zero, Option.some.injEq] at hs
      subst hs
      simp [h.1.symm]
      omega
    | succ k =>
      simp only [List.getElem?_cons_succ] at hs
      obtain ⟨h1, h2⟩ := ih h.2 k hs
      refine ⟨by omega, ?_⟩
      rw [List.take_succ_cons, List.map_cons, List.flatten_cons, h2, h.1]
      exact slice_append_slice l (by omega) h1

/-- The word lines of text written as rows. -/
theorem wordLines_rows {ls : List (Option (List Str))} (h : ∀ r, some r ∈ ls → GoodRow r) :
    (wordLines (ls.flatMap lineText)).length = (ls.filter fun l => l.any isWordRow).length := by
  unfold wordLines
  rw [fileLines_rows h, List.map_map, List.filter_map, List.length_map]
  congr 1
  apply List.filter_congr
  intro l hl
  cases l with
  | none =>
    have : stripBy isEol ['\n'] = [] := by decide
    simp only [Function.comp, lineText, this]
    rfl
  | some r =>
    have hr := h r hl
    simp only [Function.comp, lineText, hr.strip, hr.split, Option.any_some, isWordRow]
    have := hr.joined_ne
    simp [this]

/-- The number of word lines of one more document. -/
theorem writeDocument_count {out out' : Str} {d : Document} {n : Nat} (hd : Built d)
    (hT : ∀ t ∈ d.tokens, TokenPlain d.text t)
    (ho : ∃ ls : List (Option (List Str)), out = ls.flatMap lineText ∧ (∀ r, some r ∈ ls → GoodRow r) ∧
      (ls.filter fun l => l.any isWordRow).length = n)
    (h : writeDocument cols out d = .ok out') :
    ∃ ls : List (Option (List Str)), out' = ls.flatMap lineText ∧ (∀ r, some r ∈ ls → GoodRow r) ∧
      (ls.filter fun l => l.any isWordRow).length = n + (d.tokens.length +
        (d.sentences.dropLast.map fun s => repeatedAt (d.tokens.take s.stop)).sum) := by
  have hok := hd.docOk
  rw [writeDocument_eq hd] at h
  split at h
  · cases h
  · rename_i st hst
    injection h with h
    subst h
    have hfl : (d.sentences.map d.sentenceTokens).flatten = d.tokens := by
      have := tiles_flatten d.tokens hok.tiles
      rw [slice_zero_length] at this
      exact this
    cases hs : d.sentences with
    | nil =>
      rw [hs] at hst hfl
      cases hst
      have : d.tokens = [] := by simpa using hfl.symm
      simpa [this] using ho
    | cons s0 ss0 =>
      have hc : WCount (· ∈ d.tokens) [] { out } n := ⟨ho, by simp, by simp, by simp⟩
      obtain ⟨n', c, e⟩ := hc.sentences (text := d.text) hT (by
        intro s hs t ht
        obtain ⟨x, _, rfl⟩ := List.mem_map.mp hs
        exact sentenceTokens_mem ht) (by rw [hfl]; exact hok.order) (by rw [hfl]; exact hok.numbered)
        (by simp [hs]) hst
      rw [← hs]
      have hsum : (List.range ((d.sentences.map d.sentenceTokens).length - 1)).map
          (fun k => repeatedAt ([] ++ ((d.sentences.map d.sentenceTokens).take (k + 1)).flatten)) =
          d.sentences.dropLast.map fun s => repeatedAt (d.tokens.take s.stop) := by
        apply List.ext_getElem
        · simp
        · intro k hk hk'
          simp only [List.length_map, List.length_range, List.length_dropLast] at hk hk'
          simp only [List.getElem_map, List.getElem_range, List.getElem_dropLast, List.nil_append]
          have := (tiles_take d.tokens hok.tiles k (List.getElem?_eq_getElem (by omega))).2
          rw [← List.map_take]
          change repeatedAt ((d.sentences.take (k + 1)).map fun s => slice d.tokens s.start s.stop).flatten = _
          rw [this]
          simp [slice]
      obtain ⟨ls, l1, l2, l3⟩ := c.out
      refine ⟨ls, l1, l2, ?_⟩
      rw [l3, e, hsum, hfl]
      simp [WState.waiting]
      omega

end Verif
