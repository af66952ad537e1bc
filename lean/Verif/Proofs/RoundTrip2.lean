import Verif.Proofs.RoundTrip
import Verif.Props.Datamodel
import Mathlib.Data.List.Chain

/-!
# Reading what the writer wrote: sentences
-/

namespace Verif

/-- The surface units `its` spell the tokens `toks`. -/
inductive Spelled (text : Str) : List Token → List Item → Prop
  | nil : Spelled text [] []
  | word {t : Token} {p : PTok} {toks : List Token} {its : List Item} :
      t.isMultiword = false → LineSays text t p → p.spaceAfter = spaceAfter text t → Spelled text toks its →
      Spelled text (t :: toks) (.word p :: its)
  | multi {t : Token} {g toks : List Token} {h : PTok} {ws : List PTok} {its : List Item} :
      t.isMultiword = true → (∀ u ∈ g, t.coincides u = true) →
      (∀ u, toks.head? = some u → t.coincides u = false) →
      h.text = docText text t → h.spaceAfter = spaceAfter text t →
      List.Forall₂ (LineSays text) (t :: g) ws → Spelled text toks its →
      Spelled text (t :: (g ++ toks)) (.multi h ws :: its)

theorem docText_ne {text : Str} {t : Token} (h : t.stop ≤ text.length) : docText text t ≠ [] := by
  intro e
  have := congrArg List.length e
  have hl := t.lt
  simp [docText, slice_length] at this
  omega

theorem tokText_of_regular {text : Str} {t : Token} (h : t.isMultiword = false) : tokText text t = docText text t := by
  have : t.repl = none := by simpa [Token.isMultiword] using h
  simp [tokText, this]

theorem wordRows_items {cols : Cols} (hc : FullCols cols) {text : Str} {k : Nat} {toks : List Token}
    {rows : List (List Str)} (hw : ∀ t ∈ toks, TokenWritable text t) (h : WordRows (IsRow cols text) k toks rows) :
    ∃ ws, List.Forall₂ (LineOf cols) (rows.map (joinWith '\t')) ws ∧ List.Forall₂ (LineSays text) toks ws := by
  induction toks generalizing k rows with
  | nil =>
    have : rows = [] := List.length_eq_zero_iff.mp h.1
    subst this
    exact ⟨[], .nil, .nil⟩
  | cons t toks ih =>
    obtain ⟨hl, hr⟩ := h
    cases rows with
    | nil => simp at hl
    | cons r rows =>
      obtain ⟨ws, h1, h2⟩ := ih (k := k + 1) (rows := rows) (fun x hx => hw x (by simp [hx])) ⟨by simpa using hl, by
        intro i u q hu hq
        have := hr (i + 1) u q (by simpa using hu) (by simpa using hq)
        rwa [show k + 1 + i = k + (i + 1) by omega]⟩
      have h0 := hr 0 t r rfl rfl
      obtain ⟨_, rfl⟩ := isRow_iff.mp h0
      have hwt := hw t (by simp)
      obtain ⟨p, hp, hs, _⟩ := parseLine_row hc (k := k + 0) (b := false) hwt
      have hg := rowFields_good cols (k + 0) false hwt.plain
      exact ⟨p :: ws, .cons ⟨hg.joined_ne, by rw [hg.split]; exact hp⟩ h1, .cons hs h2⟩

theorem block_items {cols : Cols} (hc : FullCols cols) {text : Str} {k : Nat} {toks : List Token}
    {rows : List (List Str)} (hw : ∀ t ∈ toks, TokenWritable text t) (h : Block text (IsRow cols text) k toks rows) :
    (∀ r ∈ rows, GoodRow r) ∧
    ∃ its, ItemLines cols (rows.map (joinWith '\t')) its ∧ Spelled text toks its := by
  induction h with
  | nil => exact ⟨by simp, [], .nil, .nil⟩
  | @word k t toks r rs h1 h2 h3 ih =>
    obtain ⟨g, its, h4, h5⟩ := ih (fun x hx => hw x (by simp [hx]))
    obtain ⟨_, rfl⟩ := isRow_iff.mp h2
    have hwt := hw t (by simp)
    obtain ⟨p, hp, hs, hid, hsp⟩ := parseLine_row hc (k := k) (b := true) hwt
    have hg := rowFields_good cols k true hwt.plain
    refine ⟨by simpa using ⟨hg, g⟩, .word p :: its, ?_, .word h1 hs (by simpa using hsp) h5⟩
    refine .word ⟨hg.joined_ne, by rw [hg.split]; exact hp⟩ hid (natStr_not_mem (by decide)) (natStr_not_mem (by decide)) ?_ h4
    rw [hs.text, tokText_of_regular h1]
    exact docText_ne hwt.inside
  | @multi k t g toks ws rs h1 h2 h3 h4 h5 ih =>
    obtain ⟨hg, its, h6, h7⟩ := ih (fun x hx => hw x (by simp [hx]))
    have hwt := hw t (by simp)
    obtain ⟨p, hp, htx, hid, hsp⟩ := parseLine_header (cols := cols) (text := text) (k := k) (n := g.length + 1) (t := t)
    have hgh : GoodRow (headerRow text k (g.length + 1) t) := rangeRow_good _ _ hwt.plain
    have hwg : ∀ u ∈ t :: g, TokenWritable text u := fun u hu => hw u (by
      rcases List.mem_cons.mp hu with rfl | hu
      · simp
      · simp [hu])
    obtain ⟨ps, g1, g2⟩ := wordRows_items hc hwg h4
    have hpl := g2.length_eq
    have hgw : ∀ r ∈ ws, GoodRow r := by
      intro r hr
      obtain ⟨i, hi, rfl⟩ := List.mem_iff_getElem.mp hr
      have hi' : i < (t :: g).length := h4.1 ▸ hi
      have := h4.2 i _ _ (List.getElem?_eq_getElem hi') (List.getElem?_eq_getElem hi)
      obtain ⟨_, e⟩ := isRow_iff.mp this
      rw [e]
      exact rowFields_good _ _ _ (hwg _ (List.getElem_mem hi')).plain
    refine ⟨?_, .multi p ps :: its, ?_, .multi h1 h2 h3 htx hsp g2 h7⟩
    · intro r hr
      rcases List.mem_cons.mp hr with rfl | hr
      · exact hgh
      · rcases List.mem_append.mp hr with hr | hr
        · exact hgw r hr
        · exact hg r hr
    · rw [List.map_cons, List.map_append]
      refine .multi ⟨hgh.joined_ne, by rw [hgh.split]; exact hp⟩ hid ?_ ?_ (pyInt_natStr (k + 1)) (pyInt_natStr (k + (g.length + 1))) ?_ ?_ ?_ g1 h6
      · simp only [List.mem_append, List.mem_cons, not_or]
        exact ⟨natStr_not_mem (by decide), by decide, natStr_not_mem (by decide)⟩
      · rw [splitOn1_append (natStr_not_mem (by decide)), splitOn1_of_not_mem (natStr_not_mem (by decide))]
      · rw [htx]; exact docText_ne hwt.inside
      · intro e; rw [e] at hpl; simp at hpl
      · rw [← hpl]; push_cast; simp only [List.length_cons]; omega

/-! ### numbering -/

theorem ItemTokens.numbered {off : Nat} {it : Item} {toks : List Token} (h : ItemTokens off it toks) :
    toks.IsChain NumberedAfter ∧ ∀ t, toks.head? = some t → t.sub = 0 := by
  cases it with
  | word p =>
    obtain ⟨t, rfl, h1⟩ := h
    exact ⟨by simp, by simp [h1.sub]⟩
  | multi hd ws =>
    have key : ∀ (i : Nat) (hi : i < toks.length), toks[i].start = off ∧
        toks[i].stop = off + hd.text.length ∧ toks[i].sub = i ∧ toks[i].repl.isSome = true := by
      intro i hi
      have hi' : i < ws.length := h.1 ▸ hi
      have := h.2 i _ _ (List.getElem?_eq_getElem hi') (List.getElem?_eq_getElem hi)
      exact ⟨this.start, this.stop, this.sub, by rw [this.repl]; rfl⟩
    constructor
    · rw [List.isChain_iff_getElem]
      intro i hi
      obtain ⟨a1, a2, a3, a4⟩ := key i (by omega)
      obtain ⟨b1, b2, b3, b4⟩ := key (i + 1) hi
      intro _
      exact ⟨fun _ => by rw [a3, b3]; push_cast; rfl, fun h => absurd ⟨a4, by omega, by omega⟩ h⟩
    · intro t ht
      rw [List.head?_eq_getElem?] at ht
      obtain ⟨h0, rfl⟩ := List.getElem?_eq_some_iff.mp ht
      simpa using (key 0 h0).2.2.1

theorem ItemsTokens.numbered {off : Nat} {its : List Item} {toks : List Token} (h : ItemsTokens off its toks)
    (hne : ∀ it ∈ its, it.words ≠ []) :
    toks.IsChain NumberedAfter ∧ ∀ t, toks.head? = some t → t.sub = 0 := by
  induction its generalizing off toks with
  | nil => cases h; simp
  | cons it its ih =>
    obtain ⟨a, b, rfl, h1, h2⟩ := h
    obtain ⟨i1, i2⟩ := ih h2 (fun x hx => hne x (by simp [hx]))
    obtain ⟨j1, j2⟩ := h1.numbered
    have hane : a ≠ [] := by
      intro e
      have := h1.length
      rw [e] at this
      exact hne it (by simp) (List.length_eq_zero_iff.mp this.symm)
    constructor
    · rw [List.isChain_append]
      refine ⟨j1, i1, ?_⟩
      intro x hx y hy _
      refine ⟨?_, fun _ => i2 y hy⟩
      rintro ⟨_, e1, _⟩
      exfalso
      have hx' := h1.span.2 x (List.mem_of_getLast? hx)
      have hy' := h2.before.2 y (List.mem_of_mem_head? hy)
      have := x.lt
      simp [Item.piece] at hy'
      omega
    · intro t ht
      refine j2 t ?_
      cases a with
      | nil => exact absurd rfl hane
      | cons x a => simpa using ht

/-- What was read for a sentence, against what was written. -/
structure SameRaw (text text' : Str) (t t' : Token) : Prop where
  form : tokText text t = tokText text' t'
  surface : docText text t = docText text' t'
  sub : t.sub = t'.sub
  repl : t.repl = t'.repl
  pos : Option.Rel SamePos t.pos t'.pos
  lemma' : t.lemma' = t'.lemma'
  deprel : t.deprel = t'.deprel
  headSent : t.headSent = t'.headSent
  extras : t'.extras = Dict.empty

theorem group_subs {t : Token} {g rest : List Token} {n : Int} (hm : t.isMultiword = true) (h0 : t.sub = n) (hn : 0 ≤ n)
    (hc : ∀ u ∈ g, t.coincides u = true) (hr : ∀ u, rest.head? = some u → t.coincides u = false)
    (hN : (t :: (g ++ rest)).IsChain NumberedAfter) (hB : (t :: (g ++ rest)).Pairwise Before) :
    (∀ (i : Nat) (u : Token), (t :: g)[i]? = some u → u.sub = n + i ∧ u.isMultiword = true ∧
      u.start = t.start ∧ u.stop = t.stop) ∧
    rest.IsChain NumberedAfter ∧ rest.Pairwise Before ∧ ∀ u, rest.head? = some u → u.sub = 0 := by
  induction g generalizing t n with
  | nil =>
    simp only [List.nil_append] at hN hB
    refine ⟨?_, hN.tail, hB.tail, ?_⟩
    · intro i u hu
      cases i with
      | zero => simp at hu; subst hu; exact ⟨by simpa using h0, hm, rfl, rfl⟩
      | succ i => simp at hu
    · intro u hu
      cases rest with
      | nil => simp at hu
      | cons v rest =>
        simp at hu
        subst hu
        have h1 := hr v rfl
        cases hv : v.repl with
        | none => exact v.mwOk hv
        | some r =>
          have h2 : NumberedAfter t v := by
            rw [List.isChain_cons_cons] at hN; exact hN.1
          refine (h2 (by rw [hv]; rfl)).2 ?_
          rintro ⟨_, e1, e2⟩
          simp [Token.coincides, e1, e2] at h1
  | cons v g ih =>
    simp only [List.cons_append] at hN hB
    have h1 := hc v (by simp)
    simp only [Token.coincides, Bool.and_eq_true, beq_iff_eq] at h1
    have hN' := hN
    rw [List.isChain_cons_cons] at hN'
    have hb : Before t v := (List.pairwise_cons.mp hB).1 v (by simp)
    have hsub : 0 < v.sub := by
      unfold Before at hb
      have := t.lt
      omega
    have hvm : v.isMultiword = true := by
      unfold Token.isMultiword
      cases hv : v.repl with
      | none => have := v.mwOk hv; omega
      | some r => rfl
    have hv1 : v.sub = n + 1 := by
      have := (hN'.1 hvm).1 ⟨hm, h1.1, h1.2⟩
      omega
    obtain ⟨g1, g2, g3, g4⟩ := ih hvm hv1 (by omega) (by
        intro u hu
        have := hc u (by simp [hu])
        simp only [Token.coincides, Bool.and_eq_true, beq_iff_eq] at this ⊢
        omega) (by
        intro u hu
        have := hr u hu
        rw [Token.coincides, ← h1.1, ← h1.2]
        exact this) hN'.2 hB.tail
    refine ⟨?_, g2, g3, g4⟩
    intro i u hu
    cases i with
    | zero => simp at hu; subst hu; exact ⟨by simpa using h0, hm, rfl, rfl⟩
    | succ i =>
      obtain ⟨k1, k2, k3, k4⟩ := g1 i u (by simpa using hu)
      exact ⟨by rw [k1]; push_cast; omega, k2, by omega, by omega⟩

theorem docText_congr {text : Str} {t u : Token} (h1 : u.start = t.start) (h2 : u.stop = t.stop) :
    docText text u = docText text t := by
  unfold docText; rw [h1, h2]

theorem spelled_tokens {text : Str} {toks : List Token} {its : List Item} (h : Spelled text toks its)
    (hN : toks.IsChain NumberedAfter) (hB : toks.Pairwise Before) (h0 : ∀ t, toks.head? = some t → t.sub = 0)
    {off : Nat} {toks' : List Token} (ht : ItemsTokens off its toks') {pre post : Str} (hpre : pre.length = off) :
    List.Forall₂ (SameRaw text (pre ++ (surfaceText its ++ post))) toks toks' := by
  induction h generalizing off toks' pre with
  | nil => cases ht; exact .nil
  | @word t p toks its h1 h2 h3 h4 ih =>
    obtain ⟨a, b, rfl, ⟨t', rfl, hof⟩, hb⟩ := ht
    have htxt : docText (pre ++ (surfaceText (.word p :: its) ++ post)) t' = p.text := by
      unfold docText
      rw [hof.start, hof.stop, ← hpre, surfaceText_cons]
      simp only [Item.piece, Item.surface, List.append_assoc]
      exact slice_mid _ _ _
    have hrepl : t.repl = none := by simpa [Token.isMultiword] using h1
    have hdt : docText text t = p.text := by rw [h2.text, tokText_of_regular h1]
    refine .cons ?_ ?_
    · refine ⟨?_, by rw [hdt, htxt], by rw [hof.sub, t.mwOk hrepl]; rfl, by rw [hof.repl, hrepl],
        by rw [hof.pos]; exact h2.pos, by rw [hof.lemma', h2.lemma'], by rw [hof.deprel, h2.deprel], ?_, hof.extras⟩
      · rw [← h2.text, tokText, hof.repl, htxt]; rfl
      · rw [hof.headSent, h2.head]
        cases t.headSent with
        | none => rfl
        | some v => simp
    · have hnext : ∀ u, toks.head? = some u → u.sub = 0 := by
        intro u hu
        cases toks with
        | nil => simp at hu
        | cons v toks =>
          simp at hu
          subst hu
          cases hv : v.repl with
          | none => exact v.mwOk hv
          | some r =>
            rw [List.isChain_cons_cons] at hN
            refine (hN.1 (by rw [hv]; rfl)).2 ?_
            rintro ⟨e, _⟩
            simp [hrepl] at e
      have := ih hN.tail hB.tail hnext hb (pre := pre ++ Item.piece (.word p)) (by simp [hpre])
      rw [surfaceText_cons]
      simpa [List.append_assoc] using this
  | @multi t g toks hd ws its h1 h2 h3 h4 h5 h6 h7 ih =>
    obtain ⟨a, b, rfl, ha, hb⟩ := ht
    obtain ⟨g1, g2, g3, g4⟩ := group_subs h1 (h0 t rfl) (by omega) h2 h3 hN hB
    have hrest := ih g2 g3 g4 hb (pre := pre ++ Item.piece (.multi hd ws)) (by simp [hpre])
    have hl : (t :: g).length = a.length := h6.length_eq.trans ha.1.symm
    have hgroup : List.Forall₂ (SameRaw text (pre ++ (surfaceText (.multi hd ws :: its) ++ post))) (t :: g) a := by
      rw [List.forall₂_iff_get] at h6 ⊢
      refine ⟨hl, fun i hi hi' => ?_⟩
      have hiw : i < ws.length := h6.1 ▸ hi
      have hs := h6.2 i hi hiw
      have hof := ha.2 i _ _ (List.getElem?_eq_getElem hiw) (List.getElem?_eq_getElem hi')
      obtain ⟨k1, k2, k3, k4⟩ := g1 i _ (List.getElem?_eq_getElem hi)
      simp only [List.get_eq_getElem] at hs ⊢
      generalize (t :: g)[i] = u at *
      generalize a[i] = u' at *
      generalize ws[i] = p at *
      have htxt : docText (pre ++ (surfaceText (.multi hd ws :: its) ++ post)) u' = hd.text := by
        unfold docText
        rw [hof.start, hof.stop, ← hpre, surfaceText_cons]
        simp only [Item.piece, Item.surface, List.append_assoc]
        exact slice_mid _ _ _
      have hur : u.repl = some p.text := by
        rw [hs.text]
        unfold Token.isMultiword at k2
        obtain ⟨r, hr⟩ := Option.isSome_iff_exists.mp k2
        simp [tokText, hr]
      refine ⟨?_, by rw [htxt, h4]; exact docText_congr k3 k4, by rw [hof.sub, k1]; simp, by rw [hof.repl, hur],
        by rw [hof.pos]; exact hs.pos, by rw [hof.lemma', hs.lemma'], by rw [hof.deprel, hs.deprel], ?_, hof.extras⟩
      · rw [← hs.text, tokText, hof.repl]; rfl
      · rw [hof.headSent, hs.head]
        cases u.headSent with
        | none => rfl
        | some v => simp
    have hall := List.rel_append (R := SameRaw text (pre ++ (surfaceText (.multi hd ws :: its) ++ post))) hgroup (by
      rw [surfaceText_cons]
      simpa [List.append_assoc] using hrest)
    simpa using hall

end Verif
