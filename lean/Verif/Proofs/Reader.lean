import Verif.Spec.Conllu
import Verif.Proofs.Text
import Verif.Proofs.Built

/-!
# The reader against the grammar
-/

namespace Verif

theorem computeHead_eq (h : Option Int) : computeHead h = h.map (· - 1) := by
  cases h with
  | none => rfl
  | some h =>
    simp only [computeHead, Option.map_some]
    split
    · rename_i e; subst e; rfl
    · rfl

theorem tokenNew_of {a b sub : Nat} {repl : Option Str} {p : PTok} {t : Token}
    (h : Token.new a b p.pos p.lemma' p.deprel sub repl none (computeHead p.head) none = .ok t) :
    a < b ∧ TokenOf a b sub repl p t ∧ t.headDoc = none := by
  unfold Token.new at h
  split at h
  · split at h
    · split at h
      · injection h with h
        subst h
        rw [computeHead_eq]
        exact ⟨by omega, ⟨rfl, rfl, rfl, rfl, rfl, rfl, rfl, rfl, rfl⟩, rfl⟩
      · cases h
    · cases h
  · cases h

theorem tokenNew_ok {a b sub : Nat} {repl : Option Str} {p : PTok} (hlt : a < b)
    (hr : repl = none → sub = 0) :
    ∃ t, Token.new a b p.pos p.lemma' p.deprel sub repl none (computeHead p.head) none = .ok t := by
  unfold Token.new
  rw [dif_pos (by omega), dif_pos (by omega), dif_pos (by intro h; simp [hr h])]
  exact ⟨_, rfl⟩

theorem TokenOf.unique {a b sub : Nat} {repl : Option Str} {p : PTok} {t t' : Token}
    (h : TokenOf a b sub repl p t) (h' : TokenOf a b sub repl p t') (e : t.headDoc = t'.headDoc) : t = t' := by
  obtain ⟨h1, h2, h3, h4, h5, h6, h7, h8, h9⟩ := h
  obtain ⟨g1, g2, g3, g4, g5, g6, g7, g8, g9⟩ := h'
  cases t; cases t'
  simp only at *
  subst h1 h2 h3 h4 h5 h6 h7 h8 h9 g1 g2 g3 g4 g5 g6 g7 g8 g9 e
  rfl

theorem ItemTokens.length {off : Nat} {it : Item} {toks : List Token} (h : ItemTokens off it toks) :
    toks.length = it.words.length := by
  cases it with
  | word p => obtain ⟨t, rfl, _⟩ := h; rfl
  | multi hd ws => exact h.1

theorem ItemsTokens.length {off : Nat} {its : List Item} {toks : List Token}
    (h : ItemsTokens off its toks) : toks.length = wordCount its := by
  induction its generalizing off toks with
  | nil => cases h; rfl
  | cons it its ih =>
    obtain ⟨a, b, rfl, h1, h2⟩ := h
    simp [wordCount, h1.length, ih h2]

theorem wordCount_append (a b : List Item) : wordCount (a ++ b) = wordCount a + wordCount b := by
  simp [wordCount]

theorem surfaceText_append (a b : List Item) : surfaceText (a ++ b) = surfaceText a ++ surfaceText b := by
  simp [surfaceText]

theorem surfaceText_cons (it : Item) (its : List Item) :
    surfaceText (it :: its) = it.piece ++ surfaceText its := by
  simp [surfaceText]

theorem ItemsTokens.append {off : Nat} {a b : List Item} {x y : List Token}
    (h1 : ItemsTokens off a x) (h2 : ItemsTokens (off + (surfaceText a).length) b y) :
    ItemsTokens off (a ++ b) (x ++ y) := by
  induction a generalizing off x with
  | nil => cases h1; simpa [surfaceText] using h2
  | cons it a ih =>
    obtain ⟨u, v, rfl, h3, h4⟩ := h1
    refine ⟨u, v ++ y, by simp, h3, ih h4 ?_⟩
    rw [surfaceText_cons, List.length_append, ← Nat.add_assoc] at h2
    exact h2

theorem ItemsTokens.split {off : Nat} {a b : List Item} {z : List Token}
    (h : ItemsTokens off (a ++ b) z) : ∃ x y, z = x ++ y ∧ ItemsTokens off a x ∧
      ItemsTokens (off + (surfaceText a).length) b y := by
  induction a generalizing off z with
  | nil => exact ⟨[], z, rfl, rfl, by simpa [surfaceText] using h⟩
  | cons it a ih =>
    obtain ⟨u, v, rfl, h3, h4⟩ := h
    obtain ⟨x, y, rfl, h5, h6⟩ := ih h4
    refine ⟨u ++ x, y, by simp, ⟨u, x, rfl, h3, h5⟩, ?_⟩
    rw [surfaceText_cons, List.length_append, ← Nat.add_assoc]
    exact h6

/-! ### multiword mode -/

theorem addToken_multi {cols : Cols} {st : RState} {m : MState} (hm : st.multi = some m) (l : Str) {st' : RState}
    (h : addToken cols st l = .ok st') :
    ∃ p t, parseLine cols (splitOn1 '\t' l) = .ok p ∧ TokenOf m.start m.stop m.added (some p.text) p t ∧
      t.headDoc = none ∧ m.start < m.stop ∧
      st' = { st with tokens := st.tokens ++ [t],
                      multi := if m.count = (m.added : Int) + 1 then none
                        else some { m with added := m.added + 1 } } := by
  unfold addToken at h
  cases hp : parseLine cols (splitOn1 '\t' l) with
  | error e => rw [hp] at h; cases h
  | ok p =>
    rw [hp] at h
    simp only [hm, processMulti] at h
    split at h
    · cases h
    · rename_i t ht
      injection h with h
      obtain ⟨h1, h2, h3⟩ := tokenNew_of ht
      exact ⟨p, t, rfl, h2, h3, h1, by rw [← h]; simp⟩

theorem multi_sound {cols : Cols} {ls : List Str} (hne : ∀ l ∈ ls, l ≠ []) {st st' : RState} {m : MState}
    (hm : st.multi = some m) (h : forM' (addToken cols) st ls = .ok st') (hend : st'.multi = none) :
    ∃ wl ls' ws ts, ls = wl ++ ls' ∧ ws ≠ [] ∧ List.Forall₂ (LineOf cols) wl ws ∧
      m.count = m.added + ws.length ∧ m.start < m.stop ∧ ts.length = ws.length ∧
      (∀ (i : Nat) (p : PTok) (t : Token), ws[i]? = some p → ts[i]? = some t →
        TokenOf m.start m.stop (m.added + i) (some p.text) p t) ∧
      (∀ t ∈ ts, t.headDoc = none) ∧
      forM' (addToken cols) { st with tokens := st.tokens ++ ts, multi := none } ls' = .ok st' := by
  induction ls generalizing st m with
  | nil =>
    simp only [forM'] at h
    injection h with h
    subst h
    rw [hm] at hend; cases hend
  | cons l ls ih =>
    simp only [forM'] at h
    cases hs : addToken cols st l with
    | error e => rw [hs] at h; cases h
    | ok st1 =>
      rw [hs] at h
      simp only at h
      obtain ⟨p, t, hp, ht, htd, hlt, rfl⟩ := addToken_multi hm l hs
      have hl : LineOf cols l p := ⟨hne l (by simp), hp⟩
      by_cases hc : m.count = (m.added : Int) + 1
      · simp only [hc, if_true] at h
        refine ⟨[l], ls, [p], [t], rfl, by simp, by simp [hl], by simp [hc], hlt, rfl, ?_, by simp [htd], h⟩
        intro i p' t' hp' ht'
        cases i with
        | zero => simp at hp' ht'; subst hp' ht'; exact ht
        | succ i => simp at hp'
      · simp only [hc, if_false] at h
        obtain ⟨wl, ls', ws, ts, rfl, h1, h2, h3, h4, h5, h6, h7, h8⟩ :=
          ih (fun x hx => hne x (by simp [hx])) rfl h
        refine ⟨l :: wl, ls', p :: ws, t :: ts, rfl, by simp, .cons hl h2, ?_, hlt, by simp [h5], ?_, ?_, ?_⟩
        · simp only [List.length_cons] at h3 ⊢; push_cast at h3 ⊢; omega
        · intro i p' t' hp' ht'
          cases i with
          | zero => simp at hp' ht'; subst hp' ht'; exact ht
          | succ i =>
            have := h6 i p' t' (by simpa using hp') (by simpa using ht')
            simpa [Nat.add_assoc, Nat.add_comm 1 i] using this
        · intro x hx
          rcases List.mem_cons.mp hx with rfl | hx
          · exact htd
          · exact h7 x hx
        · simpa using h8

theorem multi_complete {cols : Cols} {wl : List Str} {ws : List PTok}
    (hl : List.Forall₂ (LineOf cols) wl ws) {st : RState} {m : MState} (hm : st.multi = some m)
    (hne : ws ≠ []) (hc : m.count = m.added + ws.length) (hlt : m.start < m.stop) :
    ∃ ts : List Token, ts.length = ws.length ∧ (∀ (i : Nat) (p : PTok) (t : Token), ws[i]? = some p → ts[i]? = some t →
        TokenOf m.start m.stop (m.added + i) (some p.text) p t) ∧
      (∀ t ∈ ts, t.headDoc = none) ∧
      forM' (addToken cols) st wl = .ok { st with tokens := st.tokens ++ ts, multi := none } := by
  induction hl generalizing st m with
  | nil => exact absurd rfl hne
  | @cons l p wl ws h1 h2 ih =>
    obtain ⟨t, ht⟩ := tokenNew_ok (a := m.start) (b := m.stop) (sub := m.added) (repl := some p.text) (p := p)
      hlt (by simp)
    obtain ⟨_, hto, htd⟩ := tokenNew_of ht
    have hstep : addToken cols st l = .ok { st with
        tokens := st.tokens ++ [t]
        multi := if m.count = (m.added : Int) + 1 then none else some { m with added := m.added + 1 } } := by
      unfold addToken
      simp only [h1.2, hm, processMulti, ht]
      simp
    simp only [forM', hstep]
    cases ws with
    | nil =>
      cases h2
      simp only [List.length_cons, List.length_nil] at hc
      refine ⟨[t], rfl, ?_, by simp [htd], ?_⟩
      · intro i p' t' hp' ht'
        cases i with
        | zero => simp at hp' ht'; subst hp' ht'; exact hto
        | succ i => simp at hp'
      · simp [forM', hc]
    | cons p2 ws =>
      simp only [List.length_cons] at hc
      have hc' : m.count ≠ (m.added : Int) + 1 := by push_cast at hc; omega
      simp only [hc', if_false]
      obtain ⟨ts, g1, g2, g3, g4⟩ := ih (st := { st with
        tokens := st.tokens ++ [t]
        multi := some { m with added := m.added + 1 } }) (m := { m with added := m.added + 1 }) rfl (by simp)
        (by simp only [List.length_cons]; push_cast at hc ⊢; omega) hlt
      refine ⟨t :: ts, by simp [g1], ?_, ?_, ?_⟩
      · intro i p' t' hp' ht'
        cases i with
        | zero => simp at hp' ht'; subst hp' ht'; exact hto
        | succ i =>
          have := g2 i p' t' (by simpa using hp') (by simpa using ht')
          simpa [Nat.add_assoc, Nat.add_comm 1 i] using this
      · intro x hx
        rcases List.mem_cons.mp hx with rfl | hx
        · exact htd
        · exact g3 x hx
      · simpa using g4

/-! ### one sentence -/

theorem items_sound {cols : Cols} (n : Nat) {ls : List Str} (hn : ls.length ≤ n) (hne : ∀ l ∈ ls, l ≠ [])
    {st st' : RState} (hm : st.multi = none) (h : forM' (addToken cols) st ls = .ok st')
    (hend : st'.multi = none) :
    ∃ its ts, ItemLines cols ls its ∧ ItemsTokens st.text.length its ts ∧ (∀ t ∈ ts, t.headDoc = none) ∧
      st' = { st with text := st.text ++ surfaceText its, tokens := st.tokens ++ ts } := by
  induction n generalizing ls st with
  | zero =>
    have : ls = [] := List.length_eq_zero_iff.mp (by omega)
    subst this
    simp only [forM'] at h
    injection h with h
    subst h
    exact ⟨[], [], .nil, rfl, by simp, by simp [surfaceText]⟩
  | succ n ih =>
    cases ls with
    | nil =>
      simp only [forM'] at h
      injection h with h
      subst h
      exact ⟨[], [], .nil, rfl, by simp, by simp [surfaceText]⟩
    | cons l ls =>
      have hne' : ∀ x ∈ ls, x ≠ [] := fun x hx => hne x (by simp [hx])
      simp only [List.length_cons] at hn
      simp only [forM'] at h
      cases hs : addToken cols st l with
      | error e => rw [hs] at h; cases h
      | ok st1 =>
        rw [hs] at h
        simp only at h
        unfold addToken at hs
        cases hp : parseLine cols (splitOn1 '\t' l) with
        | error e => rw [hp] at hs; cases hs
        | ok p =>
          have hl : LineOf cols l p := ⟨hne l (by simp), hp⟩
          rw [hp] at hs
          simp only [hm, processRegular] at hs
          cases hid : p.id with
          | none => rw [hid] at hs; cases hs
          | some id =>
            rw [hid] at hs
            simp only at hs
            by_cases hdot : '.' ∈ id
            · rw [if_pos hdot] at hs
              injection hs with hs
              subst hs
              obtain ⟨its, ts, h1, h2, h3, h4⟩ := ih (by omega) hne' hm h
              exact ⟨its, ts, .skip hl hid hdot h1, h2, h3, h4⟩
            rw [if_neg hdot] at hs
            by_cases hdash : '-' ∈ id
            · rw [if_pos hdash] at hs
              split at hs
              · rename_i a b hab
                split at hs
                · rename_i y x hy hx
                  injection hs with hs
                  subst hs
                  obtain ⟨wl, ls', ws, ts, rfl, h1, h2, h3, h4, h5, h6, h7, h8⟩ :=
                    multi_sound hne' rfl h hend
                  simp only at h3 h4 h6 h8
                  obtain ⟨its, ts', g1, g2, g3, g4⟩ := ih (by simp only [List.length_append] at hn; omega)
                    (fun x hx => hne' x (by simp [hx])) rfl h8
                  refine ⟨.multi p ws :: its, ts ++ ts', ?_, ⟨ts, ts', rfl, ⟨h5, ?_⟩, ?_⟩, ?_, ?_⟩
                  · refine .multi hl hid hdot hab hx hy ?_ h1 (by simpa using h3) h2 g1
                    intro e; simp [e] at h4
                  · simpa using h6
                  · simpa [Item.piece, Item.surface, Nat.add_assoc] using g2
                  · intro t ht
                    rcases List.mem_append.mp ht with ht | ht
                    · exact h7 t ht
                    · exact g3 t ht
                  · rw [g4, surfaceText_cons]
                    simp [Item.piece, Item.surface, hm]
                · cases hs
              · cases hs
            · rw [if_neg hdash] at hs
              split at hs
              · cases hs
              · rename_i t ht
                injection hs with hs
                subst hs
                obtain ⟨g1, g2, g3⟩ := tokenNew_of (a := st.text.length) (b := st.text.length + p.text.length) (sub := 0) ht
                obtain ⟨its, ts, h1, h2, h3, h4⟩ := ih (by omega) hne' rfl h
                refine ⟨.word p :: its, t :: ts, .word hl hid hdot hdash ?_ h1,
                  ⟨[t], ts, rfl, ⟨t, rfl, g2⟩, ?_⟩, ?_, ?_⟩
                · intro e; simp [e] at g1
                · simpa [Item.piece, Item.surface, Nat.add_assoc] using h2
                · intro x hx
                  rcases List.mem_cons.mp hx with rfl | hx
                  · exact g3
                  · exact h3 x hx
                · rw [h4, surfaceText_cons]
                  simp [Item.piece, Item.surface, hm]

theorem items_complete {cols : Cols} {ls : List Str} {its : List Item} (hl : ItemLines cols ls its)
    {st : RState} (hm : st.multi = none) :
    ∃ ts, ItemsTokens st.text.length its ts ∧ (∀ t ∈ ts, t.headDoc = none) ∧
      forM' (addToken cols) st ls =
        .ok { st with text := st.text ++ surfaceText its, tokens := st.tokens ++ ts } := by
  induction hl generalizing st with
  | nil => exact ⟨[], rfl, by simp, by simp [forM', surfaceText]⟩
  | @skip l p id ls its h1 h2 h3 h4 ih =>
    have : addToken cols st l = .ok st := by
      unfold addToken
      simp only [h1.2, hm, processRegular, h2, if_pos h3]
    simp only [forM', this]
    exact ih hm
  | @word l p id ls its h1 h2 h3 h4 h5 h6 ih =>
    obtain ⟨t, ht⟩ := tokenNew_ok (a := st.text.length) (b := st.text.length + p.text.length) (sub := 0)
      (repl := none) (p := p) (by have := List.length_pos_iff.mpr h5; omega) (by simp)
    obtain ⟨_, hto, htd⟩ := tokenNew_of ht
    have hstep : addToken cols st l = .ok { st with
        text := st.text ++ p.text ++ spaceIf p.spaceAfter, tokens := st.tokens ++ [t] } := by
      unfold addToken
      simp only [h1.2, hm, processRegular, h2, if_neg h3, if_neg h4]
      have ht' : Token.new (st.text.length : Int) ((st.text.length + p.text.length : Nat) : Int) p.pos
          p.lemma' p.deprel 0 none none (computeHead p.head) none = .ok t := ht
      rw [ht']
    simp only [forM', hstep]
    obtain ⟨ts, g1, g2, g3⟩ := ih (st := { st with
        text := st.text ++ p.text ++ spaceIf p.spaceAfter, tokens := st.tokens ++ [t] }) hm
    refine ⟨t :: ts, ⟨[t], ts, rfl, ⟨t, rfl, hto⟩, ?_⟩, ?_, ?_⟩
    · simpa [Item.piece, Item.surface, Nat.add_assoc] using g1
    · intro x hx
      rcases List.mem_cons.mp hx with rfl | hx
      · exact htd
      · exact g2 x hx
    · rw [g3, surfaceText_cons]
      simp [Item.piece, Item.surface]
  | @multi l h id a b x y wl ws ls its h1 h2 h3 h4 h5 h6 h7 h8 h9 h10 h11 ih =>
    have hdash : '-' ∈ id := by
      by_contra hc
      rw [splitOn1_of_not_mem hc] at h4
      simp at h4
    let st1 : RState := { st with
        text := st.text ++ h.text ++ spaceIf h.spaceAfter,
        multi := some { count := y - x + 1, added := 0, start := st.text.length, stop := st.text.length + h.text.length } }
    have hstep : addToken cols st l = .ok st1 := by
      unfold addToken
      simp only [h1.2, hm, processRegular, h2, if_neg h3, if_pos hdash, h4, h5, h6]
      rfl
    simp only [forM', hstep]
    obtain ⟨ts, k1, k2, k3, k4⟩ := multi_complete h10 (st := st1)
      (m := { count := y - x + 1, added := 0, start := st.text.length, stop := st.text.length + h.text.length })
      rfl h8 (by simpa using h9)
      (by have := List.length_pos_iff.mpr h7; simp only; omega)
    obtain ⟨ts', g1, g2, g3⟩ := ih (st := { st1 with tokens := st1.tokens ++ ts, multi := none }) rfl
    refine ⟨ts ++ ts', ⟨ts, ts', rfl, ⟨k1, by simpa using k2⟩, ?_⟩, ?_, ?_⟩
    · simpa [st1, Item.piece, Item.surface, Nat.add_assoc] using g1
    · intro t ht
      rcases List.mem_append.mp ht with ht | ht
      · exact k3 t ht
      · exact g2 t ht
    · rw [forM'_append, k4]
      simp only
      rw [g3, surfaceText_cons]
      simp [st1, Item.piece, Item.surface, hm]

end Verif
