import Verif.Props.UdEval

/-!
# Proofs about evaluation on a common tokenisation
-/

namespace Verif

/-! ### The alignment sees only spans, the multi-word flag and lower-cased forms -/

theorem sameLook_get {lower : Str → Str} {ws vs : List UDWord} (h : List.Forall₂ (SameLook lower) ws vs) (i : Nat) :
    (ws[i]? = none ∧ vs[i]? = none) ∨ ∃ a b, ws[i]? = some a ∧ vs[i]? = some b ∧ SameLook lower a b := by
  induction h generalizing i with
  | nil => exact .inl ⟨rfl, rfl⟩
  | cons h _ ih =>
    cases i with
    | zero => exact .inr ⟨_, _, rfl, rfl, h⟩
    | succ i => exact ih i

theorem beyondEnd_congr {lower : Str → Str} {ws vs : List UDWord} (h : List.Forall₂ (SameLook lower) ws vs) (i e : Nat) :
    beyondEnd ws i e = beyondEnd vs i e := by
  unfold beyondEnd
  rcases sameLook_get h i with ⟨h1, h2⟩ | ⟨a, b, h1, h2, h3, h4, _⟩
  · rw [h1, h2]
  · rw [h1, h2]; simp only [h3, h4]

theorem takeGold_congr {lower : Str → Str} {gold sys vs : List UDWord} (h : List.Forall₂ (SameLook lower) sys vs)
    (gi si : Nat) : takeGold gold sys gi si = takeGold gold vs gi si := by
  unfold takeGold wordAt
  rw [h.length_eq]
  rcases sameLook_get h si with ⟨h1, h2⟩ | ⟨a, b, h1, h2, h3, h4, _⟩
  · rw [h1, h2]
  · rw [h1, h2]
    cases gold[gi]? with
    | none => rfl
    | some g => simp only [h3]

theorem spanLoop_congr {lower : Str → Str} {gold sys vs : List UDWord} (h : List.Forall₂ (SameLook lower) sys vs) :
    ∀ fuel gi si e, spanLoop gold sys fuel gi si e = spanLoop gold vs fuel gi si e := by
  intro fuel
  induction fuel with
  | zero => intro gi si e; rfl
  | succ fuel ih =>
    intro gi si e
    rw [spanLoop, spanLoop, beyondEnd_congr h, takeGold_congr h]
    unfold wordAt
    rcases sameLook_get h si with ⟨h1, h2⟩ | ⟨a, b, h1, h2, h3, h4, _⟩
    · rw [h1, h2]; simp only [ih]
    · rw [h1, h2]; simp only [ih, extendEnd, h3, h4]

theorem findMultiwordSpan_congr {lower : Str → Str} {gold sys vs : List UDWord}
    (h : List.Forall₂ (SameLook lower) sys vs) (gi si : Nat) :
    findMultiwordSpan gold sys gi si = findMultiwordSpan gold vs gi si := by
  unfold findMultiwordSpan wordAt
  rw [h.length_eq]
  rcases sameLook_get h si with ⟨h1, h2⟩ | ⟨a, b, h1, h2, h3, h4, _⟩
  · rw [h1, h2]
    cases gold[gi]? <;> rfl
  · rw [h1, h2]
    cases gold[gi]? with
    | none => rfl
    | some g => simp only [spanLoop_congr h, h3, h4]

theorem forms_congr {lower : Str → Str} {sys vs : List UDWord} (h : List.Forall₂ (SameLook lower) sys vs) (a b : Nat) :
    forms lower sys a b = forms lower vs a b := by
  unfold forms slice
  have h' := List.forall₂_take (b - a) (List.forall₂_drop a h)
  generalize (sys.drop a).take (b - a) = l at h'
  generalize (vs.drop a).take (b - a) = m at h'
  induction h' with
  | nil => rfl
  | cons h1 _ ih => rw [List.map_cons, List.map_cons, ih]; congr 1; exact h1.2.2

theorem alignLoop_congr {lower : Str → Str} {gold sys vs : List UDWord} (h : List.Forall₂ (SameLook lower) sys vs) :
    ∀ fuel gi si, alignLoop lower gold sys fuel gi si = alignLoop lower gold vs fuel gi si := by
  intro fuel
  induction fuel with
  | zero => intro gi si; rfl
  | succ fuel ih =>
    intro gi si
    rw [alignLoop, alignLoop, findMultiwordSpan_congr h]
    rcases sameLook_get h si with ⟨h1, h2⟩ | ⟨a, b, h1, h2, h3, h4, _⟩
    · rw [h1, h2]
      cases gold[gi]? <;> rfl
    · rw [h1, h2]
      cases gold[gi]? with
      | none => rfl
      | some g => simp only [ih, h3, h4, alignSpan, forms_congr h]

theorem alignWords_congr {lower : Str → Str} {gold sys vs : List UDWord} (h : List.Forall₂ (SameLook lower) sys vs) :
    alignWords lower gold sys = alignWords lower gold vs := by
  unfold alignWords
  rw [h.length_eq, alignLoop_congr h]

/-! ### The same tokens -/

/-- The words belong to tokens with the spans `ts`, and no token is without words. -/
structure WordsOf (ts : List Span) (ws : List UDWord) : Prop where
  up : SpansUp ts
  mem : ∀ w ∈ ws, w.span ∈ ts
  all : ∀ t ∈ ts, ∃ w ∈ ws, w.span = t
  ordered : ws.Pairwise WordBefore

/-- The words before position `i` start before `c`, the others do not. -/
def SplitAt (ws : List UDWord) (i c : Nat) : Prop :=
  (∀ k w, k < i → ws[k]? = some w → w.span.start < c) ∧ (∀ k w, i ≤ k → ws[k]? = some w → c ≤ w.span.start)

theorem SpansUp.disjoint {ts : List Span} (h : SpansUp ts) {a b : Span} (ha : a ∈ ts) (hb : b ∈ ts) :
    a = b ∨ a.stop ≤ b.start ∨ b.stop ≤ a.start := by
  induction ts with
  | nil => cases ha
  | cons s ts ih =>
    have hp := (List.pairwise_cons.1 h.2).1
    rcases List.mem_cons.1 ha with ea | ea <;> rcases List.mem_cons.1 hb with eb | eb
    · exact .inl (ea.trans eb.symm)
    · subst ea; exact .inr (.inl (hp b eb))
    · subst eb; exact .inr (.inr (hp a ea))
    · exact ih h.tail ea eb

theorem WordsOf.nonEmpty {ts : List Span} {ws : List UDWord} (h : WordsOf ts ws) : NonEmptySpans ws :=
  fun w hw => h.up.1 _ (h.mem w hw)

theorem WordsOf.start_mono {ts : List Span} {ws : List UDWord} (h : WordsOf ts ws) {i j : Nat} {a b : UDWord}
    (hij : i ≤ j) (ha : ws[i]? = some a) (hb : ws[j]? = some b) : a.span.start ≤ b.span.start := by
  by_cases e : i = j
  · subst e; rw [ha] at hb; injection hb with hb; subst hb; exact Nat.le_refl _
  · rcases wordBefore_get h.ordered (by omega : i < j) ha hb with ⟨_, _, e⟩ | h'
    · rw [e]
    · have := h.nonEmpty.get ha; omega

/-- The next words of both sides belong to the same token. -/
theorem next_same {ts : List Span} {gold sys : List UDWord} (hg : WordsOf ts gold) (hs : WordsOf ts sys) {gi si c : Nat}
    (cg : SplitAt gold gi c) (cs : SplitAt sys si c) {g s : UDWord} (h1 : gold[gi]? = some g) (h2 : sys[si]? = some s) :
    g.span = s.span := by
  have key : ∀ {a b : List UDWord} {i j : Nat} {x y : UDWord}, WordsOf ts a → WordsOf ts b → SplitAt a i c → SplitAt b j c →
      a[i]? = some x → b[j]? = some y → y.span.start ≤ x.span.start := by
    intro a b i j x y wa wb sa sb hx hy
    obtain ⟨w, hw, he⟩ := wb.all _ (wa.mem x (List.mem_of_getElem? hx))
    obtain ⟨k, hk, e⟩ := List.getElem_of_mem hw
    have hk' : b[k]? = some w := by rw [List.getElem?_eq_getElem hk, e]
    have hcx := sa.2 i x (Nat.le_refl _) hx
    have hjk : j ≤ k := by
      by_contra hlt
      have := sb.1 k w (by omega) hk'
      rw [he] at this
      omega
    have := wb.start_mono hjk hy hk'
    rw [he] at this
    exact this
  have l1 := key hg hs cg cs h1 h2
  have l2 := key hs hg cs cg h2 h1
  have m1 := hg.mem g (List.mem_of_getElem? h1)
  have m2 := hs.mem s (List.mem_of_getElem? h2)
  have n1 := hg.nonEmpty.get h1
  have n2 := hs.nonEmpty.get h2
  rcases hg.up.disjoint m1 m2 with e | e | e
  · exact e
  · omega
  · omega

/-- `e` is the end of a token: no word crosses it. -/
def NoCross (ws : List UDWord) (e : Nat) : Prop := ∀ w ∈ ws, w.span.start < e → w.span.stop ≤ e

theorem WordsOf.noCross {ts : List Span} {ws : List UDWord} (h : WordsOf ts ws) {t : Span} (ht : t ∈ ts) :
    NoCross ws t.stop := by
  intro w hw hlt
  have := h.up.1 _ ht
  have := h.up.1 _ (h.mem w hw)
  rcases h.up.disjoint (h.mem w hw) ht with e | e | e
  · rw [e]
  · omega
  · omega

theorem spanLoop_token {gold sys : List UDWord} (hg : NonEmptySpans gold) (hs : NonEmptySpans sys) {e : Nat}
    (cg : NoCross gold e) (cs : NoCross sys e) :
    ∀ (fuel gi si gi' si' : Nat), spanLoop gold sys fuel gi si e = .ok (gi', si') →
      gi ≤ gi' ∧ si ≤ si' ∧ (∀ k w, gi ≤ k → k < gi' → gold[k]? = some w → w.span.start < e) ∧
      (∀ k w, si ≤ k → k < si' → sys[k]? = some w → w.span.start < e) ∧ PastEnd gold gi' e ∧ PastEnd sys si' e := by
  intro fuel
  induction fuel with
  | zero => intro gi si gi' si' h; cases h
  | succ fuel ih =>
    intro gi si gi' si' h
    rw [spanLoop] at h
    by_cases hc : (!beyondEnd gold gi e || !beyondEnd sys si e) = true
    · rw [if_pos hc] at h
      have hc' : ¬ PastEnd gold gi e ∨ ¬ PastEnd sys si e := by
        rw [← beyondEnd_iff, ← beyondEnd_iff]
        simpa using hc
      have hlt : gi < gold.length ∨ si < sys.length := by
        rcases hc' with h | h
        · obtain ⟨w, hw, _⟩ := start_lt_of_not_past hg h
          exact .inl (List.getElem?_eq_some_iff.1 hw).1
        · obtain ⟨w, hw, _⟩ := start_lt_of_not_past hs h
          exact .inr (List.getElem?_eq_some_iff.1 hw).1
      have hext : ∀ w : UDWord, (w.span.start < e → w.span.stop ≤ e) → w.span.start < e → extendEnd w e = e := by
        intro w h1 h2
        have := h1 h2
        unfold extendEnd
        rw [if_neg]
        simp
        omega
      rcases takeGold_spec hlt with ⟨g, h1, h2, h3⟩ | ⟨s, h1, h2, h3⟩
      · rw [h2] at h
        simp only [wordAt, h1] at h
        have hst : g.span.start < e := by
          rcases hc' with h | h
          · obtain ⟨w, hw, hlt⟩ := start_lt_of_not_past hg h
            rw [h1] at hw; injection hw with hw; rw [hw]; exact hlt
          · obtain ⟨w, hw, hlt⟩ := start_lt_of_not_past hs h
            have := h3 w hw
            omega
        rw [hext g (cg g (List.mem_of_getElem? h1)) hst] at h
        obtain ⟨q1, q2, q3, q4, q5, q6⟩ := ih _ _ _ _ h
        refine ⟨by omega, q2, ?_, q4, q5, q6⟩
        intro k w hk1 hk2 hw
        by_cases hk : k = gi
        · subst hk; rw [h1] at hw; injection hw with hw; subst hw; exact hst
        · exact q3 k w (by omega) hk2 hw
      · rw [h2] at h
        simp only [wordAt, h1] at h
        have hst : s.span.start < e := by
          rcases hc' with h | h
          · obtain ⟨w, hw, hlt⟩ := start_lt_of_not_past hg h
            have := h3 w hw
            omega
          · obtain ⟨w, hw, hlt⟩ := start_lt_of_not_past hs h
            rw [h1] at hw; injection hw with hw; rw [hw]; exact hlt
        rw [hext s (cs s (List.mem_of_getElem? h1)) hst] at h
        obtain ⟨q1, q2, q3, q4, q5, q6⟩ := ih _ _ _ _ h
        refine ⟨q1, by omega, q3, ?_, q5, q6⟩
        intro k w hk1 hk2 hw
        by_cases hk : k = si
        · subst hk; rw [h1] at hw; injection hw with hw; subst hw; exact hst
        · exact q4 k w (by omega) hk2 hw
    · rw [if_neg hc] at h
      have hc' : PastEnd gold gi e ∧ PastEnd sys si e := by
        rw [← beyondEnd_iff, ← beyondEnd_iff]
        simpa using hc
      injection h with h
      injection h with e1 e2
      subst e1 e2
      exact ⟨Nat.le_refl _, Nat.le_refl _, by intro k w a b; omega, by intro k w a b; omega, hc'.1, hc'.2⟩

theorem findMultiwordSpan_token {ts : List Span} {gold sys : List UDWord} (hg : WordsOf ts gold) (hs : WordsOf ts sys)
    {gi si c : Nat} (cg : SplitAt gold gi c) (cs : SplitAt sys si c) {g s : UDWord} (h1 : gold[gi]? = some g)
    (h2 : sys[si]? = some s) {gs ss gi' si' : Nat}
    (h : findMultiwordSpan gold sys gi si = .ok (gs, ss, gi', si')) :
    gs = gi ∧ ss = si ∧ gi ≤ gi' ∧ si ≤ si' ∧ SplitAt gold gi' g.span.stop ∧ SplitAt sys si' g.span.stop := by
  have hsp := next_same hg hs cg cs h1 h2
  have hmem := hg.mem g (List.mem_of_getElem? h1)
  have hne := hg.nonEmpty.get h1
  unfold findMultiwordSpan at h
  simp only [wordAt, h1, h2, hsp, Nat.lt_irrefl, decide_false, Bool.and_false, Bool.false_eq_true, if_false, ite_self] at h
  cases hl : spanLoop gold sys (gold.length + sys.length + 1) gi si s.span.stop with
  | error er => rw [hl] at h; cases h
  | ok p =>
    obtain ⟨a, b⟩ := p
    rw [hl] at h
    injection h with h
    simp only [Prod.mk.injEq] at h
    obtain ⟨rfl, rfl, rfl, rfl⟩ := h
    rw [← hsp] at hl
    obtain ⟨q1, q2, q3, q4, q5, q6⟩ := spanLoop_token hg.nonEmpty hs.nonEmpty (hg.noCross hmem) (hs.noCross hmem)
      _ _ _ _ _ hl
    have hcle := cg.2 gi g (Nat.le_refl _) h1
    have key : ∀ {ws : List UDWord} {i i' : Nat}, WordsOf ts ws → SplitAt ws i c →
        (∀ k w, i ≤ k → k < i' → ws[k]? = some w → w.span.start < g.span.stop) → PastEnd ws i' g.span.stop →
        SplitAt ws i' g.span.stop := by
      intro ws i i' hw hc h3 h5
      constructor
      · intro k w hk hkw
        by_cases hik : i ≤ k
        · exact h3 k w hik hk hkw
        · have := hc.1 k w (by omega) hkw
          omega
      · intro k w hk hkw
        have hlt : i' < ws.length := by
          have := (List.getElem?_eq_some_iff.1 hkw).1
          omega
        have hv : ws[i']? = some ws[i'] := by simp
        have hmono := hw.start_mono hk hv hkw
        obtain ⟨p1, p2⟩ := h5 _ hv
        by_cases hm : ws[i'].multi = true
        · have := p1 hm; omega
        · have := p2 (by simpa using hm)
          have hx := hw.noCross hmem ws[i'] (List.getElem_mem _)
          by_contra hcon
          have := hx (by omega)
          omega
    exact ⟨rfl, rfl, q1, q2, key hg cg q3 q5, key hs cs q4 q6⟩

/-- Words between two splits at the ends of a token belong to the token. -/
theorem span_between {ts : List Span} {ws : List UDWord} (hw : WordsOf ts ws) {t : Span} (ht : t ∈ ts) {i i' : Nat}
    {v : UDWord} (hv : ws[i]? = some v) (hvs : v.span = t) (h' : SplitAt ws i' t.stop) {k : Nat} {w : UDWord} (h1 : i ≤ k)
    (h2 : k < i') (hk : ws[k]? = some w) : w.span = t := by
  have hlo := hw.start_mono h1 hv hk
  have hhi := h'.1 k w h2 hk
  rw [hvs] at hlo
  have := hw.nonEmpty.get hk
  have := hw.up.1 _ ht
  rcases hw.up.disjoint (hw.mem w (List.mem_of_getElem? hk)) ht with e | e | e
  · exact e
  · omega
  · omega

theorem alignLoop_same_tokens (lower : Str → Str) {ts : List Span} {gold sys : List UDWord} (hg : WordsOf ts gold)
    (hs : WordsOf ts sys) : ∀ (fuel gi si c : Nat) (pairs : List (Nat × Nat)), SplitAt gold gi c → SplitAt sys si c →
    alignLoop lower gold sys fuel gi si = .ok pairs → ∀ p ∈ pairs, PairSat gold sys (fun g s => g.span = s.span) p := by
  intro fuel
  induction fuel with
  | zero => intro gi si c pairs _ _ h; cases h
  | succ fuel ih =>
    intro gi si c pairs cg cs h
    rw [alignLoop] at h
    cases h1 : gold[gi]? with
    | none => rw [h1] at h; injection h with h; subst h; intro p hp; cases hp
    | some g =>
      cases h2 : sys[si]? with
      | none => rw [h1, h2] at h; injection h with h; subst h; intro p hp; cases hp
      | some s =>
        have hsp := next_same hg hs cg cs h1 h2
        have hmem := hg.mem g (List.mem_of_getElem? h1)
        rw [h1, h2] at h
        simp only at h
        by_cases hm : (g.multi || s.multi) = true
        · rw [if_pos hm] at h
          cases hf : findMultiwordSpan gold sys gi si with
          | error er => rw [hf] at h; cases h
          | ok r =>
            obtain ⟨gs, ss, gi', si'⟩ := r
            rw [hf] at h
            simp only at h
            obtain ⟨rfl, rfl, q1, q2, q3, q4⟩ := findMultiwordSpan_token hg hs cg cs h1 h2 hf
            obtain ⟨l, a1, a2⟩ := alignSpan_spec lower gold sys gs ss gi' si'
            rw [a1] at h
            simp only at h
            cases hr : alignLoop lower gold sys fuel gi' si' with
            | error er => rw [hr] at h; cases h
            | ok rest =>
              rw [hr] at h
              injection h with h
              subst h
              intro p hp
              rcases List.mem_append.1 hp with hp | hp
              · obtain ⟨r, hr', rfl⟩ := List.mem_map.1 hp
                obtain ⟨x, hx, hy⟩ := a2.1.2 r hr'
                have e1 := (List.getElem?_eq_some_iff.1 hx).1
                have e2 := (List.getElem?_eq_some_iff.1 hy).1
                simp only [lowerForms, List.length_map, List.length_drop, List.length_take] at e1 e2
                have b1 : gs + r.1 < gold.length := by omega
                have b2 : ss + r.2 < sys.length := by omega
                refine ⟨gold[gs + r.1], sys[ss + r.2], by simp, by simp, ?_⟩
                exact (span_between hg hmem h1 rfl q3 (by omega : gs ≤ gs + r.1) (by omega)
                  (List.getElem?_eq_getElem b1)).trans (span_between hs hmem h2 hsp.symm q4
                  (by omega : ss ≤ ss + r.2) (by omega) (List.getElem?_eq_getElem b2)).symm
              · exact ih gi' si' _ rest q3 q4 hr p hp
        · rw [if_neg hm, if_pos (by rw [hsp]; exact ⟨rfl, rfl⟩)] at h
          cases hr : alignLoop lower gold sys fuel (gi + 1) (si + 1) with
          | error er => rw [hr] at h; cases h
          | ok rest =>
            rw [hr] at h
            injection h with h
            subst h
            have hgm : g.multi = false := by simp at hm; exact hm.1
            have hsm : s.multi = false := by simp at hm; exact hm.2
            have key : ∀ {ws : List UDWord} {i : Nat} {w : UDWord}, WordsOf ts ws → ws[i]? = some w → w.multi = false →
                w.span = g.span → SplitAt ws (i + 1) g.span.stop := by
              intro ws i w hw hi hwm hws
              have hne := hw.nonEmpty.get hi
              constructor
              · intro k v hk hv
                have := hw.start_mono (by omega : k ≤ i) hv hi
                rw [hws] at this hne
                omega
              · intro k v hk hv
                rcases wordBefore_get hw.ordered (by omega : i < k) hi hv with ⟨e, _⟩ | e
                · rw [hwm] at e; cases e
                · rw [hws] at e; exact e
            intro p hp
            rcases List.mem_cons.1 hp with rfl | hp
            · exact ⟨g, s, h1, h2, hsp⟩
            · exact ih _ _ _ rest (key hg h1 hgm rfl) (key hs h2 hsm hsp.symm) hr p hp

end Verif
