import Verif.Proofs.Resave

/-! # Documents that were read from a file can be written and read again: whole documents -/

namespace Verif

theorem goesOn_of {its : List Item} (h : ∀ it ∈ its, ∃ c, it.surface.text.head? = some c ∧ isSpace c = false)
    (hl : ∀ it, its.getLast? = some it → it.surface.spaceAfter = true) : GoesOn [] its := by
  induction its with
  | nil => trivial
  | cons it its ih =>
    refine ⟨?_, ih (fun x hx => h x (by simp [hx])) ?_⟩
    · intro hf
      cases its with
      | nil => rw [hl it rfl] at hf; cases hf
      | cons x its =>
        obtain ⟨c, hc, hs⟩ := h x (by simp)
        refine ⟨c, ?_, hs⟩
        rw [List.append_nil, surfaceText_cons, Item.piece, List.append_assoc, List.head?_append, hc]
        rfl
    · intro x hx
      refine hl x ?_
      cases its with
      | nil => simp at hx
      | cons y its => rw [List.getLast?_cons_cons]; exact hx

theorem spaceAfter_coincides {text : Str} {t u : Token} (h : t.coincides u = true) : spaceAfter text t = spaceAfter text u := by
  rw [coincides_iff] at h
  unfold spaceAfter
  rw [h.2]

/-- What is known of the lines that spell tokens. -/
theorem spelled_surface {text : Str} {toks : List Token} {its : List Item} (h : Spelled text toks its) :
    ∀ it ∈ its, it.words ≠ [] ∧ ∃ t ∈ toks, it.surface.text = docText text t := by
  induction h with
  | nil => simp
  | @word t p toks its h1 h2 h3 _ ih =>
    intro it hit
    rcases List.mem_cons.mp hit with rfl | hit
    · exact ⟨by simp [Item.words], t, by simp, by rw [← tokText_of_regular h1, ← h2.text]; rfl⟩
    · obtain ⟨a, u, hu, e⟩ := ih it hit
      exact ⟨a, u, by simp [hu], e⟩
  | @multi t g toks hd ws its h1 h2 h3 h4 h5 h6 _ ih =>
    intro it hit
    rcases List.mem_cons.mp hit with rfl | hit
    · refine ⟨?_, t, by simp, h4⟩
      rw [Item.words]
      rintro rfl
      cases h6
    · obtain ⟨a, u, hu, e⟩ := ih it hit
      exact ⟨a, u, by simp [hu], e⟩

theorem spelled_last {text : Str} {toks : List Token} {its : List Item} (h : Spelled text toks its) :
    (its = [] → toks = []) ∧
    ∀ it, its.getLast? = some it → ∃ u, toks.getLast? = some u ∧ it.surface.spaceAfter = spaceAfter text u := by
  induction h with
  | nil => simp
  | @word t p toks its h1 h2 h3 _ ih =>
    refine ⟨by simp, ?_⟩
    intro it hit
    rw [List.getLast?_cons] at hit
    cases hl : its.getLast? with
    | none =>
      rw [hl] at hit
      have := ih.1 (List.getLast?_eq_none_iff.mp hl)
      subst this
      simp only [Option.getD_none, Option.some.injEq] at hit
      subst hit
      exact ⟨t, rfl, h3⟩
    | some x =>
      rw [hl] at hit
      simp only [Option.getD_some, Option.some.injEq] at hit
      subst hit
      obtain ⟨u, hu, e⟩ := ih.2 x hl
      exact ⟨u, by rw [List.getLast?_cons, hu]; rfl, e⟩
  | @multi t g toks hd ws its h1 h2 h3 h4 h5 h6 _ ih =>
    refine ⟨by simp, ?_⟩
    intro it hit
    rw [List.getLast?_cons] at hit
    cases hl : its.getLast? with
    | none =>
      rw [hl] at hit
      have := ih.1 (List.getLast?_eq_none_iff.mp hl)
      subst this
      simp only [Option.getD_none, Option.some.injEq] at hit
      subst hit
      rw [List.append_nil, List.getLast?_cons]
      refine ⟨_, rfl, ?_⟩
      cases hg : g.getLast? with
      | none => exact h5
      | some u => exact h5.trans (spaceAfter_coincides (h2 u (List.mem_of_getLast? hg)))
    | some x =>
      rw [hl] at hit
      simp only [Option.getD_some, Option.some.injEq] at hit
      subst hit
      obtain ⟨u, hu, e⟩ := ih.2 x hl
      refine ⟨u, ?_, e⟩
      rw [List.getLast?_cons, List.getLast?_append, hu]; rfl

/-- The sentence ends in a multiword token. -/
def endsMulti (its : List Item) : Prop := ∃ h ws, its.getLast? = some (.multi h ws)

theorem spelled_endsMulti {text : Str} {toks : List Token} {its : List Item} (h : Spelled text toks its)
    (hm : endsMulti its) : ¬ EndsRegular toks := by
  induction h with
  | nil => obtain ⟨_, _, h⟩ := hm; simp at h
  | @word t p toks its h1 h2 h3 hsp ih =>
    obtain ⟨hd, ws, hl⟩ := hm
    intro hE
    cases hits : its.getLast? with
    | none => rw [List.getLast?_cons, hits] at hl; cases hl
    | some x =>
      rw [List.getLast?_cons, hits] at hl
      refine ih ⟨hd, ws, by rw [hits]; exact hl⟩ ?_
      intro u hu f hf
      refine hE u ?_ f (by simp [hf])
      rw [List.getLast?_cons, hu]; rfl
  | @multi t g toks hd' ws' its h1 h2 h3 h4 h5 h6 hsp ih =>
    obtain ⟨hd, ws, hl⟩ := hm
    intro hE
    cases hits : its.getLast? with
    | none =>
      have := (spelled_last hsp).1 (List.getLast?_eq_none_iff.mp hits)
      subst this
      rw [List.append_nil] at hE
      cases hg : g.getLast? with
      | none =>
        have := hE t (by rw [List.getLast?_cons, hg]; rfl) t (by simp) h1
        simp [Token.coincides] at this
      | some u =>
        have := hE u (by rw [List.getLast?_cons, hg]; rfl) t (by simp) h1
        rw [h2 u (List.mem_of_getLast? hg)] at this; cases this
    | some x =>
      rw [List.getLast?_cons, hits] at hl
      refine ih ⟨hd, ws, by rw [hits]; exact hl⟩ ?_
      intro u hu f hf
      refine hE u ?_ f (by simp [hf])
      rw [List.getLast?_cons, List.getLast?_append, hu]; rfl

theorem spelled_lastWord {text : Str} {toks : List Token} {its : List Item} (h : Spelled text toks its)
    (hm : ¬ endsMulti its) : ∀ u, toks.getLast? = some u → u.isMultiword = false := by
  induction h with
  | nil => simp
  | @word t p toks its h1 h2 h3 hsp ih =>
    intro u hu
    rw [List.getLast?_cons] at hu
    cases hits : its.getLast? with
    | none =>
      have := (spelled_last hsp).1 (List.getLast?_eq_none_iff.mp hits)
      subst this
      simp at hu
      subst hu
      exact h1
    | some x =>
      obtain ⟨v, hv, _⟩ := (spelled_last hsp).2 x hits
      rw [hv] at hu
      simp only [Option.getD_some, Option.some.injEq] at hu
      subst hu
      refine ih ?_ v hv
      rintro ⟨hd, ws, e⟩
      exact hm ⟨hd, ws, by rw [List.getLast?_cons, e]; rfl⟩
  | @multi t g toks hd' ws' its h1 h2 h3 h4 h5 h6 hsp ih =>
    intro u hu
    cases hits : its.getLast? with
    | none => exact absurd ⟨hd', ws', by rw [List.getLast?_cons, hits]; rfl⟩ hm
    | some x =>
      obtain ⟨v, hv, _⟩ := (spelled_last hsp).2 x hits
      rw [List.getLast?_cons, List.getLast?_append, hv] at hu
      simp only [Option.some_or, Option.getD_some, Option.some.injEq] at hu
      subst hu
      refine ih ?_ v hv
      rintro ⟨hd, ws, e⟩
      exact hm ⟨hd, ws, by rw [List.getLast?_cons, e]; rfl⟩

/-- Sentences that were read end in a multiword token only if the lines do. -/
theorem spelled_endsRegular {text : Str} {toks : List Token} {its : List Item} (h : Spelled text toks its)
    (hB : toks.Pairwise Before) (hsub : ∀ t ∈ toks, 0 ≤ t.sub) (hm : ¬ endsMulti its) : EndsRegular toks := by
  intro u hu f hf hfm
  by_contra hc
  simp only [Bool.not_eq_false] at hc
  have hum := spelled_lastWord h hm u hu
  rcases last_before hB hu hf with rfl | hb
  · rw [hum] at hfm; cases hfm
  · have h0 : u.sub = 0 := u.mwOk (by simpa [Token.isMultiword] using hum)
    rw [coincides_iff] at hc
    have := hsub f hf
    have := f.lt
    unfold Before at hb
    omega

theorem docOf_sub {c : List (List Item)} {d : Document} (h : DocOf c d) : ∀ t ∈ d.tokens, 0 ≤ t.sub := by
  intro t ht
  obtain ⟨_, _, _, _, _, _, sub, _, g, _⟩ := itemsTokens_of h.tokens t ht
  rw [g.sub]
  exact Int.natCast_nonneg _

theorem writeDocument_total {cols : Cols} {d : Document} {out : Str} (hb : Built d)
    (hT : ∀ t ∈ d.tokens, t.pos = none ∨ colFEATS ∈ cols) : ∃ o, writeDocument cols out d = .ok o := by
  have hd : ∀ (ss : List (List Token)) (st : WState), WReady (· ∈ d.tokens) st →
      (∀ s ∈ ss, ∀ t ∈ s, t ∈ d.tokens) → ∃ st', forM' (writeSentence cols d.text) st ss = .ok st' := by
    intro ss
    induction ss with
    | nil => exact fun st _ _ => ⟨st, rfl⟩
    | cons s ss ih2 =>
      intro st hst hs
      obtain ⟨st1, h1, h2⟩ := writeSentence_total (cols := cols) (text := d.text)
        (T := (· ∈ d.tokens)) hT hst (hs s (by simp))
      obtain ⟨st2, h3⟩ := ih2 st1 h2 (fun x hx => hs x (by simp [hx]))
      exact ⟨st2, by simp only [forM', h1, h3]⟩
  obtain ⟨st', hst'⟩ := hd (d.sentences.map d.sentenceTokens) { out := out } (by intro i f g e; cases e) (by
    intro s hs t ht
    obtain ⟨x, _, rfl⟩ := List.mem_map.mp hs
    exact sentenceTokens_mem ht)
  rw [writeDocument_eq hb, hst']
  exact ⟨_, rfl⟩

/-- One document: what is read back is written as before. -/
theorem written_again {cols : Cols} {d d' : Document} {c : List (List Item)} (hb : BuiltValid d) (hw : Writable d)
    (hsp : List.Forall₂ (Spelled d.text) (d.sentences.map d.sentenceTokens) c) (hraw : DocRaw c d')
    (hg : GoesOn [] c.flatten) {o o1 : Str} (h : writeDocument cols o d = .ok o1) (hF : colFEATS ∈ cols) : writeDocument cols o d' = .ok o1 := by
  have hd := hb.built.docOk
  have hflat : (d.sentences.map d.sentenceTokens).flatten = d.tokens := by
    have := tiles_flatten d.tokens hd.tiles
    rw [slice_zero_length] at this
    exact this
  have hcne : c ≠ [] := by
    rintro rfl
    have := hsp.length_eq
    simp at this
    exact hw.sentences_ne hb.built this
  have hdoc := hraw.docOf hcne
  have hsurf : ∀ it ∈ c.flatten, it.words ≠ [] ∧ ∃ t ∈ d.tokens, it.surface.text = docText d.text t := by
    intro it hit
    obtain ⟨its, hits, hit⟩ := List.mem_flatten.mp hit
    obtain ⟨s, hs, h1⟩ := forall₂_exists_left hsp hits
    obtain ⟨a, t, ht, e⟩ := spelled_surface h1 it hit
    refine ⟨a, t, ?_, e⟩
    rw [← hflat]
    exact List.mem_flatten.mpr ⟨s, hs, ht⟩
  have hsne : ∀ it ∈ c.flatten, it.surface.text ≠ [] := by
    intro it hit
    obtain ⟨_, t, ht, e⟩ := hsurf it hit
    rw [e]
    exact docText_ne (hw.token t ht).inside
  have hsp' := doc_spelled hdoc (fun it hit => (hsurf it hit).1) hsne hg
  have hb' : Built d' := by
    obtain ⟨toks, ss, _, _, _, h⟩ := hraw
    exact ⟨_, _, _, _, h⟩
  have hE' : ∀ s ∈ d'.sentences.dropLast, EndsRegular (d'.sentenceTokens s) := by
    intro s hs
    obtain ⟨k, hk, rfl⟩ := List.mem_iff_getElem.mp hs
    rw [List.length_dropLast] at hk
    have hlen : d'.sentences.length = c.length := by simpa using hsp'.length_eq
    have hlen2 : d.sentences.length = c.length := by simpa using hsp.length_eq
    rw [List.getElem_dropLast]
    have s1 := (List.forall₂_iff_get.mp hsp').2 k (by simp; omega) (by omega)
    have s2 := (List.forall₂_iff_get.mp hsp).2 k (by simp; omega) (by omega)
    simp only [List.get_eq_getElem, List.getElem_map] at s1 s2
    refine spelled_endsRegular s1 (hb'.docOk.order.sublist (slice_sublist _ _ _))
      (fun t ht => docOf_sub hdoc t (sentenceTokens_mem ht)) ?_
    intro hm
    refine spelled_endsMulti s2 hm (hw.ends _ ?_)
    exact List.mem_iff_getElem.mpr ⟨k, by rw [List.length_dropLast]; omega, by simp⟩
  obtain ⟨blocks, b1, b2⟩ := writeDocument_blocks hb.built hw.ends h
  obtain ⟨o2, ho2⟩ := writeDocument_total (cols := cols) (out := o) hb' (fun t _ => .inr hF)
  obtain ⟨blocks', b1', b2'⟩ := writeDocument_blocks hb' hE' ho2
  rw [ho2, b2', b2, spelled_written hsp hsp' b1 b1']

/-! ### Documents that were read -/

theorem ItemTokens.stop {off : Nat} {it : Item} {toks : List Token} (h : ItemTokens off it toks) :
    ∀ t ∈ toks, t.start = off ∧ t.stop = off + it.surface.text.length := by
  intro t ht
  cases it with
  | word p =>
    obtain ⟨u, rfl, hu⟩ := h
    rw [List.mem_singleton.mp ht]
    exact ⟨hu.start, hu.stop⟩
  | multi hd ws =>
    obtain ⟨hl, hu⟩ := h
    obtain ⟨i, hi, rfl⟩ := List.mem_iff_getElem.mp ht
    have := hu i _ _ (List.getElem?_eq_getElem (hl ▸ hi)) (List.getElem?_eq_getElem hi)
    exact ⟨this.start, this.stop⟩

theorem ItemTokens.ne {off : Nat} {it : Item} {toks : List Token} (h : ItemTokens off it toks) (hw : it.words ≠ []) : toks ≠ [] := by
  rintro rfl
  cases it with
  | word p => obtain ⟨u, e, _⟩ := h; cases e
  | multi hd ws => exact hw (List.length_eq_zero_iff.mp h.1.symm)

theorem items_inside {its : List Item} {off : Nat} {toks : List Token} (h : ItemsTokens off its toks) :
    ∀ t ∈ toks, t.stop ≤ off + (surfaceText its).length := by
  induction its generalizing off toks with
  | nil => cases h; simp
  | cons it its ih =>
    obtain ⟨a, b, rfl, h1, h2⟩ := h
    intro t ht
    rw [surfaceText_cons, List.length_append]
    rcases List.mem_append.mp ht with ht | ht
    · have := (h1.stop t ht).2
      simp only [Item.piece, List.length_append]
      omega
    · have := ih h2 t ht
      omega

theorem items_docText {its : List Item} {pre post : Str} {off : Nat} (hoff : pre.length = off) {toks : List Token}
    (h : ItemsTokens off its toks) : ∀ it ∈ its, it.words ≠ [] →
      ∃ t ∈ toks, docText (pre ++ (surfaceText its ++ post)) t = it.surface.text := by
  induction its generalizing pre off toks with
  | nil => simp
  | cons it its ih =>
    obtain ⟨a, b, rfl, h1, h2⟩ := h
    have etext : pre ++ (surfaceText (it :: its) ++ post) = pre ++ it.piece ++ (surfaceText its ++ post) := by
      rw [surfaceText_cons]; simp
    intro x hx hne
    rw [etext]
    rcases List.mem_cons.mp hx with rfl | hx
    · obtain ⟨t, ht⟩ := List.exists_mem_of_ne_nil _ (h1.ne hne)
      refine ⟨t, by simp [ht], ?_⟩
      obtain ⟨e1, e2⟩ := h1.stop t ht
      unfold docText slice
      rw [e1, e2, ← hoff]
      simp [Item.piece]
    · obtain ⟨t, ht, e⟩ := ih (pre := pre ++ it.piece) (off := off + it.piece.length) (by simp [hoff]) h2 x hx hne
      exact ⟨t, by simp [ht], e⟩

theorem items_last {its : List Item} {off : Nat} {toks : List Token} (h : ItemsTokens off its toks)
    (hw : ∀ it ∈ its, it.words ≠ []) : ∀ it, its.getLast? = some it →
      ∃ u, toks.getLast? = some u ∧ u.stop + (spaceIf it.surface.spaceAfter).length = off + (surfaceText its).length := by
  induction its generalizing off toks with
  | nil => simp
  | cons it its ih =>
    obtain ⟨a, b, rfl, h1, h2⟩ := h
    intro x hx
    rw [surfaceText_cons, List.length_append]
    cases hits : its.getLast? with
    | none =>
      rw [List.getLast?_cons, hits] at hx
      have := List.getLast?_eq_none_iff.mp hits
      subst this
      cases h2
      simp only [Option.getD_none, Option.some.injEq] at hx
      subst hx
      rw [List.append_nil]
      cases hu : a.getLast? with
      | none => exact absurd (List.getLast?_eq_none_iff.mp hu) (h1.ne (hw it (by simp)))
      | some u =>
        refine ⟨u, rfl, ?_⟩
        rw [(h1.stop u (List.mem_of_getLast? hu)).2]
        simp [surfaceText, Item.piece]
        omega
    | some y =>
      rw [List.getLast?_cons, hits] at hx
      simp only [Option.getD_some, Option.some.injEq] at hx
      subst hx
      obtain ⟨u, hu, e⟩ := ih h2 (fun x hx => hw x (by simp [hx])) y hits
      exact ⟨u, by rw [List.getLast?_append, hu]; rfl, by omega⟩

theorem surfaceText_last {its : List Item} {it : Item} (h : its.getLast? = some it) :
    ∃ x, surfaceText its = x ++ spaceIf it.surface.spaceAfter := by
  obtain ⟨ys, rfl⟩ := List.getLast?_eq_some_iff.mp h
  exact ⟨surfaceText ys ++ it.surface.text, by rw [surfaceText_append]; simp [surfaceText, Item.piece]⟩

/-- At the end of a document that was read, a space or the end of the text follows. -/
theorem docOf_last {c : List (List Item)} {d : Document} (h : DocOf c d) (hw : ∀ it ∈ c.flatten, it.words ≠ []) :
    ∀ t, d.tokens.getLast? = some t → spaceAfter d.text t = true := by
  intro t ht
  cases hl : c.flatten.getLast? with
  | none =>
    have e := h.tokens
    rw [List.getLast?_eq_none_iff.mp hl, ItemsTokens] at e
    rw [e] at ht
    cases ht
  | some it =>
    obtain ⟨u, hu, e⟩ := items_last h.tokens hw it hl
    rw [ht] at hu
    cases hu
    obtain ⟨x, hx⟩ := surfaceText_last hl
    rw [h.text, hx]
    rw [hx, List.length_append, Nat.zero_add] at e
    unfold spaceAfter
    have hstop : t.stop = x.length := by omega
    rw [hstop]
    cases it.surface.spaceAfter <;> simp [spaceIf] <;> decide

theorem items_spaced {its : List Item} (hw : ∀ it ∈ its, it.words ≠ []) {pre post : Str} (hg : GoesOn post its) {off : Nat}
    (hoff : pre.length = off) {toks rest : List Token} (h : ItemsTokens off its toks)
    (hr : Spaced (pre ++ (surfaceText its ++ post)) (off + (surfaceText its).length) rest) :
    Spaced (pre ++ (surfaceText its ++ post)) off (toks ++ rest) := by
  induction its generalizing pre off toks with
  | nil => cases h; simpa [surfaceText] using hr
  | cons it its ih =>
    obtain ⟨a, b, rfl, h1, h2⟩ := h
    have etext : pre ++ (surfaceText (it :: its) ++ post) = pre ++ it.piece ++ (surfaceText its ++ post) := by
      rw [surfaceText_cons]; simp
    have etext2 : pre ++ it.piece ++ (surfaceText its ++ post) =
        pre ++ (it.surface.text ++ spaceIf it.surface.spaceAfter ++ (surfaceText its ++ post)) := by
      simp [Item.piece]
    rw [etext] at hr ⊢
    rw [surfaceText_cons, List.length_append, ← Nat.add_assoc] at hr
    have hb := ih (fun x hx => hw x (by simp [hx])) hg.2 (pre := pre ++ it.piece) (off := off + it.piece.length)
      (by simp [hoff]) h2 hr
    rw [List.append_assoc a]
    cases a with
    | nil => exact absurd rfl (h1.ne (hw it (by simp)))
    | cons t g =>
      obtain ⟨e1, e2⟩ := h1.stop t (by simp)
      have hsa : spaceAfter (pre ++ it.piece ++ (surfaceText its ++ post)) t = it.surface.spaceAfter := by
        rw [etext2]
        exact spaceAfter_piece (by rw [e2, hoff]) hg.1
      have hsub : t.sub = 0 ∧ ∀ u ∈ g, u.sub ≠ 0 := by
        cases it with
        | word p =>
          obtain ⟨u, e, hu⟩ := h1
          cases e
          exact ⟨hu.sub, by simp⟩
        | multi hd ws =>
          obtain ⟨hl, hu⟩ := h1
          refine ⟨(hu 0 _ t (List.getElem?_eq_getElem (by rw [← hl]; simp)) rfl).sub, ?_⟩
          intro u hum
          obtain ⟨i, hi, rfl⟩ := List.mem_iff_getElem.mp hum
          have := (hu (i + 1) _ g[i] (List.getElem?_eq_getElem (by rw [← hl]; simpa using hi)) (by simp)).sub
          rw [this]
          push_cast
          omega
      rw [List.cons_append, Spaced, if_pos hsub.1, hsa]
      refine ⟨e1, ?_, ?_⟩
      · rw [etext2, e2, ← hoff, show pre.length + it.surface.text.length = (pre ++ it.surface.text).length by simp,
          List.append_assoc it.surface.text, ← List.append_assoc pre, List.drop_left, List.take_left]
      · rw [spaced_skip hsub.2, e2, show off + it.surface.text.length + (spaceIf it.surface.spaceAfter).length =
          off + it.piece.length by simp [Item.piece]; omega]
        exact hb

/-- What holds of a document that was read from lines. -/
structure ReadDoc (c : List (List Item)) (d : Document) : Prop where
  raw : DocRaw c d
  ne : c ≠ []
  sent_ne : ∀ its ∈ c, its ≠ []
  words : ∀ it ∈ c.flatten, it.words ≠ []
  fine : ∀ it ∈ c.flatten, ∀ p ∈ it.words, LineFine p
  plain : ∀ its ∈ c, ∀ it ∈ its, ItemPlain it

theorem SentLines.sents_ne {cols : Cols} {ls : List Str} {sents : List (List Item)} (h : SentLines cols ls sents) :
    ∀ its ∈ sents, its ≠ [] := by
  induction h with
  | nil => simp
  | cons _ h2 _ ih =>
    intro its hits
    rcases List.mem_cons.mp hits with rfl | hits
    · exact h2
    · exact ih its hits

theorem read_docs {limit : Int} {columns : Cols} (hu : colUPOS ∈ columns) {text : Str} {docs : List Document}
    (h : readFromStr limit columns text = .ok (docs, none)) : ∀ d ∈ docs, ∃ c, ReadDoc c d := by
  obtain ⟨hpos, sents, chunks, h1, h2, h3⟩ := C16_accepts_iff.mp h
  intro d hd
  obtain ⟨c, hc, hr⟩ := forall₂_exists_left h3 hd
  have hsub : ∀ its ∈ c, its ∈ sents := fun its hits => h2.flatten ▸ List.mem_flatten.mpr ⟨c, hc, hits⟩
  have hsub2 : ∀ it ∈ c.flatten, it ∈ sents.flatten := by
    intro it hit
    obtain ⟨its, a, b⟩ := List.mem_flatten.mp hit
    exact List.mem_flatten.mpr ⟨its, hsub its a, b⟩
  have hu' : colUPOS ∈ withHead columns := by
    unfold withHead
    split <;> simp [hu]
  exact ⟨c, hr, (h2.size c hc).1, fun its hits => h1.sents_ne its (hsub its hits),
    fun it hit => h1.words_ne it (hsub2 it hit),
    fun it hit => (sentLines_all (fun _ _ => lineOf_fine hu') h1 it (hsub2 it hit)).2,
    fun its hits => sentLines_plain h1 contentLines_newline its (hsub its hits)⟩

theorem ReadDoc.tokens_ne {c : List (List Item)} {d : Document} (h : ReadDoc c d) : d.tokens ≠ [] := by
  have hd := h.raw.docOf h.ne
  obtain ⟨its, hits⟩ := List.exists_mem_of_ne_nil _ h.ne
  obtain ⟨it, hit⟩ := List.exists_mem_of_ne_nil _ (h.sent_ne its hits)
  obtain ⟨t, ht, _⟩ := items_docText (pre := []) (post := []) rfl hd.tokens it (List.mem_flatten.mpr ⟨its, hits, hit⟩)
    (h.words it (List.mem_flatten.mpr ⟨its, hits, hit⟩))
  exact List.ne_nil_of_mem ht

theorem ReadDoc.builtValid {c : List (List Item)} {d : Document} (h : ReadDoc c d) : BuiltValid d := by
  obtain ⟨_, _, _, _, _, h⟩ := h.raw
  exact ⟨_, _, _, h⟩

theorem ReadDoc.writable {c : List (List Item)} {d : Document} (h : ReadDoc c d)
    (hheads : ∀ t ∈ d.tokens, t.headSent ≠ none) (hends : ∀ s ∈ d.sentences.dropLast, EndsRegular (d.sentenceTokens s)) :
    Writable d := by
  have hd := h.raw.docOf h.ne
  refine ⟨h.tokens_ne, ?_, (hd.tokens.numbered h.words).2, hends⟩
  intro t ht
  obtain ⟨it, hit, p, hpw, a, b, sub, repl, g1, g2⟩ := itemsTokens_of hd.tokens t ht
  have hf := h.fine it hit p hpw
  refine ⟨docOf_plain hd h.plain t ht, ?_, hheads t ht, ?_, ?_, ?_⟩
  · have := items_inside hd.tokens t ht
    rw [← hd.text] at this
    omega
  · rw [g1.lemma']; exact hf.lemma'
  · rw [g1.deprel]; exact hf.deprel
  · rw [g1.pos]; exact hf.pos

theorem ReadDoc.extras {c : List (List Item)} {d : Document} (h : ReadDoc c d) : ∀ t ∈ d.tokens, t.extras.entries = [] := by
  intro t ht
  obtain ⟨_, _, _, _, _, _, _, _, g, _⟩ := itemsTokens_of (h.raw.docOf h.ne).tokens t ht
  rw [g.extras]; rfl

theorem ReadDoc.roots {c : List (List Item)} {d : Document} (h : ReadDoc c d) :
    ∀ t ∈ d.tokens, t.isRoot = true → t.headDoc = some (-1) := by
  obtain ⟨toks, ss, _, h2, _, h4⟩ := h.raw
  obtain ⟨l, hl, _, hlen, hh⟩ := C06_heads_agree h4
  intro t ht hr
  obtain ⟨j, hj, rfl⟩ := List.mem_iff_getElem.mp ht
  obtain ⟨s, hs, c1, c2⟩ := h.builtValid.built.docOk.tiles.cover (Nat.zero_le j) hj
  obtain ⟨t0, t, g1, g2, _, a1, a2, a3⟩ := hh s hs j c1 c2
  rw [List.getElem?_eq_getElem hj] at g2
  injection g2 with g2
  rw [g2] at hr ⊢
  have hd0 : t0.headDoc = none := h2 t0 (hl.mem_iff.mp (List.mem_of_getElem? g1))
  cases hr0 : t0.isRoot with
  | true => exact (a2 hr0).1
  | false =>
    cases hh0 : t0.hasHead with
    | false =>
      obtain ⟨b1, b2⟩ := a1 hh0
      rw [Token.isRoot, b1, b2] at hr
      cases hr
    | true =>
      obtain ⟨a, b1, b2, b3, _⟩ := a3 hh0 hr0
      cases hx : t0.headSent with
      | none => rw [Token.hasHead, hd0, hx] at hh0; cases hh0
      | some x =>
        have := b3 x hx
        subst this
        rw [Token.isRoot, hd0, hx] at hr0
        rw [Token.isRoot, b1, b2] at hr
        rw [b2]
        simp only [Bool.or_eq_true, beq_iff_eq, Option.some.injEq] at hr
        rcases hr with hr | hr
        · rw [hr]
        · rw [hr] at hr0; cases hr0

theorem ReadDoc.spaced {c : List (List Item)} {d : Document} (h : ReadDoc c d) (hin : ∀ t ∈ d.tokens, t.stop < d.text.length)
    (hlead : ∀ t ∈ d.tokens, ∀ x, (docText d.text t).head? = some x → isSpace x = false) : Spaced d.text 0 d.tokens := by
  have hd := h.raw.docOf h.ne
  have etext : d.text = [] ++ (surfaceText c.flatten ++ []) := by rw [hd.text]; simp
  have hg : GoesOn [] c.flatten := by
    refine goesOn_of ?_ ?_
    · intro it hit
      obtain ⟨t, ht, e⟩ := items_docText (pre := []) (post := []) rfl hd.tokens it hit (h.words it hit)
      rw [← etext] at e
      rw [← e]
      cases hx : docText d.text t with
      | nil => exact absurd hx (docText_ne (Nat.le_of_lt (hin t ht)))
      | cons x xs => exact ⟨x, rfl, hlead t ht x (by rw [hx]; rfl)⟩
    · intro it hit
      obtain ⟨u, hu, e⟩ := items_last hd.tokens h.words it hit
      have := hin u (List.mem_of_getLast? hu)
      rw [hd.text] at this
      cases hb : it.surface.spaceAfter with
      | true => rfl
      | false => rw [hb, spaceIf] at e; simp at e; omega
  have := items_spaced (pre := []) (post := []) (rest := []) h.words hg rfl hd.tokens (by
    rw [← etext, Spaced, hd.text]; simp)
  rw [← etext, List.append_nil] at this
  exact this

/-! ### No gaps -/

/-- If `u` begins a surface unit right after `t` and no space follows `t`, then `u` starts where `t` ends. -/
def Touch (text : Str) (t u : Token) : Prop := u.sub = 0 → spaceAfter text t = false → u.start = t.stop

theorem items_touch {its : List Item} (hw : ∀ it ∈ its, it.words ≠ []) {pre post : Str} {off : Nat} (hoff : pre.length = off)
    {toks : List Token} (h : ItemsTokens off its toks) :
    toks.IsChain (Touch (pre ++ (surfaceText its ++ post))) ∧ ∀ u, toks.head? = some u → u.start = off := by
  induction its generalizing pre off toks with
  | nil => cases h; simp
  | cons it its ih =>
    obtain ⟨a, b, rfl, h1, h2⟩ := h
    have etext : pre ++ (surfaceText (it :: its) ++ post) = pre ++ it.piece ++ (surfaceText its ++ post) := by
      rw [surfaceText_cons]; simp
    obtain ⟨i1, i2⟩ := ih (fun x hx => hw x (by simp [hx])) (pre := pre ++ it.piece) (off := off + it.piece.length)
      (by simp [hoff]) h2
    rw [etext]
    cases a with
    | nil => exact absurd rfl (h1.ne (hw it (by simp)))
    | cons t g =>
      refine ⟨?_, fun u hu => ?_⟩
      · rw [List.isChain_append]
        refine ⟨?_, i1, ?_⟩
        · have hsub : ∀ u ∈ g, u.sub ≠ 0 := by
            cases it with
            | word p =>
              obtain ⟨u, e, hu⟩ := h1
              cases e
              simp
            | multi hd ws =>
              obtain ⟨hl, hu⟩ := h1
              intro u hum
              obtain ⟨i, hi, rfl⟩ := List.mem_iff_getElem.mp hum
              have := (hu (i + 1) _ g[i] (List.getElem?_eq_getElem (by rw [← hl]; simpa using hi)) (by simp)).sub
              rw [this]
              push_cast
              omega
          rw [List.isChain_iff_getElem]
          intro i hi h0
          exact absurd h0 (hsub _ (List.getElem_mem _))
        · intro x hx y hy _ hs
          obtain ⟨_, e⟩ := h1.stop x (List.mem_of_getLast? hx)
          rw [i2 y hy, e]
          cases hb : it.surface.spaceAfter with
          | false => simp [Item.piece, hb, spaceIf]
          | true =>
            exfalso
            have hstop : x.stop = (pre ++ it.surface.text).length := by rw [e, ← hoff]; simp
            have : spaceAfter (pre ++ it.piece ++ (surfaceText its ++ post)) x = true := by
              unfold spaceAfter
              rw [hstop, show pre ++ it.piece ++ (surfaceText its ++ post) =
                (pre ++ it.surface.text) ++ (' ' :: (surfaceText its ++ post)) by simp [Item.piece, hb, spaceIf]]
              simp
              decide
            rw [this] at hs
            cases hs
      · cases hu
        exact (h1.stop t (by simp)).1

theorem spelled_head {text : Str} {toks : List Token} {its : List Item} (h : Spelled text toks its) :
    ∀ u, toks.head? = some u → ∃ it its', its = it :: its' ∧ it.surface.text = docText text u := by
  cases h with
  | nil => simp
  | word h1 h2 h3 _ => intro u hu; cases hu; exact ⟨_, _, rfl, by rw [← tokText_of_regular h1, ← h2.text]; rfl⟩
  | multi h1 h2 h3 h4 h5 h6 _ => intro u hu; cases hu; exact ⟨_, _, rfl, h4⟩

theorem spaceAfter_false {text : Str} {t : Token} (hin : t.stop ≤ text.length) (h : spaceAfter text t = false) :
    ∃ x, text[t.stop]? = some x ∧ isSpace x = false := by
  unfold spaceAfter at h
  cases hx : text[t.stop]? with
  | none =>
    rw [List.getElem?_eq_none_iff] at hx
    have e : t.stop = text.length := by omega
    simp [e] at h
  | some x =>
    rw [hx] at h
    simp only [Bool.or_eq_false_iff] at h
    exact ⟨x, rfl, h.2⟩

theorem docText_head {text : Str} {t : Token} : (docText text t).head? = text[t.start]? := by
  have := t.lt
  unfold docText slice
  rw [List.head?_take, if_neg (by omega), List.head?_drop]

/-- After a unit without space, the next one begins with what follows. -/
theorem spelled_goesOn {text : Str} {toks : List Token} {its : List Item} (h : Spelled text toks its)
    (hN : toks.IsChain NumberedAfter) (hB : toks.Pairwise Before) (h0 : ∀ t, toks.head? = some t → t.sub = 0)
    (hin : ∀ t ∈ toks, t.stop ≤ text.length) {post : Str} {rest : List Token} (hR : (toks ++ rest).IsChain (Touch text))
    (hpost : ∀ u, rest.head? = some u → u.sub = 0 ∧ post.head? = (docText text u).head?)
    (hlast : rest = [] → ∀ u, toks.getLast? = some u → spaceAfter text u = true) : GoesOn post its := by
  induction h with
  | nil => trivial
  | @word t p toks its h1 h2 h3 h4 ih =>
    have hrepl : t.repl = none := by simpa [Token.isMultiword] using h1
    have hnext : ∀ u, toks.head? = some u → u.sub = 0 := by
      intro u hu
      cases toks with
      | nil => simp at hu
      | cons v toks =>
        simp at hu
        subst hu
        cases hv : v.repl with
        | none => exact v.mwOk hv
        | some r =>
          rw [List.isChain_cons_cons] at hN
          refine (hN.1 (by rw [hv]; rfl)).2 ?_
          rintro ⟨e, _⟩
          simp [hrepl] at e
    refine ⟨?_, ih hN.tail hB.tail hnext (fun u hu => hin u (by simp [hu])) hR.tail ?_⟩
    · intro hb
      have hb' : spaceAfter text t = false := h3.symm.trans hb
      obtain ⟨x, hx, hsx⟩ := spaceAfter_false (hin t (by simp)) hb'
      refine ⟨x, ?_, hsx⟩
      cases toks with
      | cons u toks =>
        obtain ⟨it, its', rfl, e⟩ := spelled_head h4 u rfl
        rw [List.cons_append, List.cons_append, List.isChain_cons_cons] at hR
        have hu := hR.1 (hnext u rfl) hb'
        rw [← hu, ← docText_head, ← e] at hx
        rw [surfaceText_cons, Item.piece, List.append_assoc, List.append_assoc, List.head?_append, hx]
        rfl
      | nil =>
        cases h4
        cases rest with
        | nil => rw [hlast rfl t rfl] at hb'; cases hb'
        | cons u rest =>
          rw [List.cons_append, List.nil_append, List.isChain_cons_cons] at hR
          obtain ⟨a1, a2⟩ := hpost u rfl
          have hu := hR.1 a1 hb'
          rw [← hu, ← docText_head, ← a2] at hx
          simpa [surfaceText] using hx
    · intro hr u hu
      refine hlast hr u ?_
      rw [List.getLast?_cons, hu]; rfl
  | @multi t g toks hd ws its h1 h2 h3 h4 h5 h6 h7 ih =>
    obtain ⟨q1, q2, q3, q4⟩ := group_subs h1 (h0 t rfl) (by omega) h2 h3 hN hB
    rw [show t :: (g ++ toks) ++ rest = (t :: g) ++ (toks ++ rest) by simp, List.isChain_append] at hR
    obtain ⟨v, hv⟩ : ∃ v, (t :: g).getLast? = some v := ⟨_, List.getLast?_eq_some_getLast (by simp)⟩
    have hvt : t.coincides v = true := by
      rcases List.mem_cons.mp (List.mem_of_getLast? hv) with rfl | hm
      · simp [Token.coincides]
      · exact h2 v hm
    refine ⟨?_, ih q2 q3 q4 (fun u hu => hin u (by simp [hu])) hR.2.1 ?_⟩
    · intro hb
      have hb' : spaceAfter text t = false := h5.symm.trans hb
      have hbv : spaceAfter text v = false := (spaceAfter_coincides hvt) ▸ hb'
      obtain ⟨x, hx, hsx⟩ := spaceAfter_false ((coincides_iff.mp hvt).2 ▸ hin t (by simp)) hbv
      refine ⟨x, ?_, hsx⟩
      cases toks with
      | cons u toks =>
        obtain ⟨it, its', rfl, e⟩ := spelled_head h7 u rfl
        have hu := hR.2.2 v hv u rfl (q4 u rfl) hbv
        rw [← hu, ← docText_head, ← e] at hx
        rw [surfaceText_cons, Item.piece, List.append_assoc, List.append_assoc, List.head?_append, hx]
        rfl
      | nil =>
        cases h7
        cases rest with
        | nil => rw [hlast rfl v (by simpa using hv)] at hbv; cases hbv
        | cons u rest =>
          obtain ⟨a1, a2⟩ := hpost u rfl
          have hu := hR.2.2 v hv u rfl a1 hbv
          rw [← hu, ← docText_head, ← a2] at hx
          simpa [surfaceText] using hx
    · intro hr u hu
      refine hlast hr u ?_
      rw [List.getLast?_cons, List.getLast?_append, hu]; rfl

theorem spelled_goesOn_sents {text : Str} {ss : List (List Token)} {sents : List (List Item)}
    (h : List.Forall₂ (Spelled text) ss sents) (hN : ∀ s ∈ ss, s.IsChain NumberedAfter)
    (hB : ∀ s ∈ ss, s.Pairwise Before) (h0 : ∀ s ∈ ss, ∀ t, s.head? = some t → t.sub = 0)
    (hne : ∀ s ∈ ss, s ≠ []) (hin : ∀ s ∈ ss, ∀ t ∈ s, t.stop ≤ text.length) (hR : ss.flatten.IsChain (Touch text))
    (hlast : ∀ u, ss.flatten.getLast? = some u → spaceAfter text u = true) : GoesOn [] sents.flatten := by
  induction h with
  | nil => trivial
  | @cons s its ss sents h1 h2 ih =>
    rw [List.flatten_cons] at hR hlast
    rw [List.flatten_cons, goesOn_append]
    have hR2 := (List.isChain_append.mp hR).2.1
    refine ⟨?_, ih (fun s hs => hN s (by simp [hs])) (fun s hs => hB s (by simp [hs]))
      (fun s hs => h0 s (by simp [hs])) (fun s hs => hne s (by simp [hs])) (fun s hs => hin s (by simp [hs])) hR2 ?_⟩
    · refine spelled_goesOn h1 (hN s (by simp)) (hB s (by simp)) (h0 s (by simp)) (hin s (by simp)) hR ?_ ?_
      · intro u hu
        rw [List.append_nil]
        cases h2 with
        | nil => cases hu
        | @cons s' its' ss sents g1 g2 =>
          cases hs' : s' with
          | nil => exact absurd hs' (hne s' (by simp))
          | cons w r =>
            rw [hs'] at hu g1
            cases hu
            obtain ⟨it, its'', rfl, e⟩ := spelled_head g1 u rfl
            refine ⟨h0 s' (by simp) u (by rw [hs']; rfl), ?_⟩
            rw [List.flatten_cons, List.cons_append, surfaceText_cons, Item.piece, e, List.append_assoc, List.head?_append]
            cases hx : docText text u with
            | nil => exact absurd hx (docText_ne (hin s' (by simp) u (by rw [hs']; simp)))
            | cons x xs => rfl
      · intro hr u hu
        refine hlast u ?_
        rw [hr, List.append_nil]; exact hu
    · intro u hu
      refine hlast u ?_
      rw [List.getLast?_append, hu]; rfl

end Verif
