import Verif.Proofs.Vocab

/-! # Properties of pretrained embeddings -/

namespace Verif

/-! ### Specification vocabulary -/

/-- The file starts with a header: its first line has exactly two fields. -/
def HasHeader : List Str → Prop
  | [] => False
  | line :: _ => (splitWs line).length = 2

instance (lines : List Str) : Decidable (HasHeader lines) := by
  cases lines <;> unfold HasHeader <;> infer_instance

/-- The lines with vectors. -/
def dataLines (lines : List Str) : List Str := if HasHeader lines then lines.tail else lines

/-- The line gives the word this vector. -/
def LineGives {F : Type} (float : Str → Res F) (line w : Str) (vec : List F) : Prop :=
  ∃ vals, splitWs line = w :: vals ∧ List.Forall₂ (fun s x => float s = .ok x) vals vec

/-- The last line about the word gives it this vector. -/
def LastGives {F : Type} (float : Str → Res F) (data : List Str) (w : Str) (vec : List F) : Prop :=
  ∃ pre line post, data = pre ++ line :: post ∧ LineGives float line w vec ∧
    ∀ l ∈ post, (splitWs l).head? ≠ some w

/-! ### Splitting at white space -/

theorem splitWsAux_spec (s cur : Str) (hc : ∀ c ∈ cur, isSpace c = false) :
    (∀ p ∈ splitWsAux cur s, p ≠ [] ∧ ∀ c ∈ p, isSpace c = false) ∧
    (splitWsAux cur s).flatten = cur.reverse ++ s.filter (fun c => !isSpace c) := by
  induction s generalizing cur with
  | nil =>
    cases cur with
    | nil => simp [splitWsAux]
    | cons c cur =>
      simp only [splitWsAux, List.isEmpty_cons, Bool.false_eq_true, if_false, List.mem_singleton,
        forall_eq, List.flatten_cons, List.flatten_nil, List.filter_nil]
      refine ⟨⟨by simp, ?_⟩, trivial⟩
      intro x hx
      exact hc x (List.mem_reverse.1 hx)
  | cons a s ih =>
    simp only [splitWsAux]
    by_cases ha : isSpace a = true
    · obtain ⟨h1, h2⟩ := ih [] (by simp)
      simp only [ha, if_true]
      cases cur with
      | nil =>
        simp only [List.isEmpty_nil, if_true]
        exact ⟨h1, by rw [h2]; simp [ha]⟩
      | cons c cur =>
        simp only [List.isEmpty_cons, Bool.false_eq_true, if_false]
        refine ⟨?_, by rw [List.flatten_cons, h2]; simp [ha]⟩
        intro p hp
        rcases List.mem_cons.1 hp with rfl | hp
        · refine ⟨by simp, ?_⟩
          intro x hx
          exact hc x (List.mem_reverse.1 hx)
        · exact h1 p hp
    · rw [Bool.not_eq_true] at ha
      simp only [ha, Bool.false_eq_true, if_false]
      obtain ⟨h1, h2⟩ := ih (a :: cur) (by
        intro c hcm
        rcases List.mem_cons.1 hcm with rfl | hcm
        · exact ha
        · exact hc c hcm)
      exact ⟨h1, by rw [h2]; simp [ha]⟩

theorem splitWsAux_word (w cur rest : Str) (hw : ∀ c ∈ w, isSpace c = false) :
    splitWsAux cur (w ++ rest) = splitWsAux (w.reverse ++ cur) rest := by
  induction w generalizing cur with
  | nil => rfl
  | cons a w ih =>
    simp only [List.cons_append, splitWsAux, hw a (by simp), Bool.false_eq_true, if_false]
    rw [ih _ (fun c hc => hw c (List.mem_cons_of_mem _ hc))]
    simp

/-- C70: fields are the maximal runs without white space: they are not empty, contain no white
space, make up the line without its white space, and words joined by a space are found again. -/
theorem C70_fields (s : Str) :
    (∀ p ∈ splitWs s, p ≠ [] ∧ ∀ c ∈ p, isSpace c = false) ∧
    (splitWs s).flatten = s.filter (fun c => !isSpace c) ∧
    (∀ (sep : Char) (a b : Str), isSpace sep = true → splitWs (a ++ sep :: b) = splitWs a ++ splitWs b) := by
  obtain ⟨h1, h2⟩ := splitWsAux_spec s [] (by simp)
  refine ⟨h1, by simpa [splitWs] using h2, ?_⟩
  intro sep a b hsep
  have key : ∀ (a cur : Str), splitWsAux cur (a ++ sep :: b) = splitWsAux cur a ++ splitWsAux [] b := by
    intro a
    induction a with
    | nil =>
      intro cur
      simp only [List.nil_append, splitWsAux, hsep, if_true]
      cases cur <;> simp
    | cons c a ih =>
      intro cur
      simp only [List.cons_append, splitWsAux]
      split
      · split
        · exact ih []
        · rw [ih]; rfl
      · exact ih _
  exact key a []

example : splitWs " the  0.5 -1\n".toList = ["the".toList, "0.5".toList, "-1".toList] := by
  decide +kernel

/-! ### Reading -/

section
variable {F : Type} {float : Str → Res F}

/-- What the loop has established after the data lines `data`. -/
structure EmbInv (float : Str → Res F) (st : EmbState F) (data : List Str) : Prop where
  vecs : ∀ w vec, st.vecs.get? w = some vec ↔ LastGives float data w vec
  lines : ∀ line ∈ data, ∃ w vec, LineGives float line w vec ∧ st.size = some (vec.length : Int)

theorem lastGives_snoc (data : List Str) (line w' : Str) (vec' : List F)
    (hl : LineGives float line w' vec') (w : Str) (vec : List F) :
    LastGives float (data ++ [line]) w vec ↔
      if w = w' then vec = vec' else LastGives float data w vec := by
  obtain ⟨vals', hs', hf'⟩ := hl
  have huniq : ∀ v, LineGives float line w v → w = w' ∧ v = vec' := by
    rintro v ⟨vals, hs, hf⟩
    rw [hs'] at hs
    injection hs with h1 h2
    subst h1 h2
    refine ⟨rfl, ?_⟩
    have := mapM'_ok_iff.2 hf
    rw [mapM'_ok_iff.2 hf'] at this
    injection this with this
    exact this.symm
  split
  · rename_i hw
    subst hw
    constructor
    · rintro ⟨pre, l, post, hd, hg, hp⟩
      rcases List.eq_nil_or_concat post with rfl | ⟨post', x, rfl⟩
      · have := List.append_inj' hd (by simp)
        injection this.2 with h _
        subst h
        exact (huniq vec hg).2
      · exfalso
        rw [List.concat_eq_append] at hd hp
        rw [← List.cons_append, ← List.append_assoc] at hd
        have := List.append_inj' hd (by simp)
        injection this.2 with h _
        subst h
        exact hp line (by simp) (by rw [hs']; rfl)
    · rintro rfl
      exact ⟨data, line, [], by simp, ⟨vals', hs', hf'⟩, by simp⟩
  · rename_i hw
    constructor
    · rintro ⟨pre, l, post, hd, hg, hp⟩
      rcases List.eq_nil_or_concat post with rfl | ⟨post', x, rfl⟩
      · exfalso
        have := List.append_inj' hd (by simp)
        injection this.2 with h _
        subst h
        exact hw (huniq vec hg).1
      · rw [List.concat_eq_append] at hd hp
        rw [← List.cons_append, ← List.append_assoc] at hd
        have := List.append_inj' hd (by simp)
        refine ⟨pre, l, post', this.1, hg, fun y hy => hp y (by simp [hy])⟩
    · rintro ⟨pre, l, post, rfl, hg, hp⟩
      refine ⟨pre, l, post ++ [line], by simp, hg, ?_⟩
      intro y hy
      rcases List.mem_append.1 hy with hy | hy
      · exact hp y hy
      · simp only [List.mem_singleton] at hy
        subst hy
        rw [hs']
        simp only [List.head?_cons, ne_eq, Option.some.injEq]
        exact fun e => hw e.symm

/-- A data line: what has to hold for it to be read, and the new state. -/
theorem readLine_data {st st' : EmbState F} {line : Str}
    (hh : ¬ (st.lineNr = 0 ∧ (splitWs line).length = 2)) :
    readEmbeddingLine float st line = .ok st' ↔
      ∃ w vec, LineGives float line w vec ∧ (∀ n, st.size = some n → n = (vec.length : Int)) ∧
        st' = { lineNr := st.lineNr + 1, size := some (vec.length : Int),
                vecs := st.vecs.set w vec } := by
  unfold readEmbeddingLine LineGives
  rw [if_neg hh]
  cases hs : splitWs line with
  | nil =>
    simp only [reduceCtorEq, false_iff]
    rintro ⟨w, vec, ⟨vals, h, _⟩, _⟩
    simp at h
  | cons key values =>
    simp only []
    cases hm : mapM' float values with
    | error e =>
      simp only [reduceCtorEq, false_iff]
      rintro ⟨w, vec, ⟨vals, h, hf⟩, _⟩
      injection h with _ h
      subst h
      rw [mapM'_ok_iff.2 hf] at hm
      simp at hm
    | ok vec =>
      have huniq : ∀ w v, (∃ vals, key :: values = w :: vals ∧
          List.Forall₂ (fun s x => float s = .ok x) vals v) → w = key ∧ v = vec := by
        rintro w v ⟨vals, h, hf⟩
        injection h with h1 h2
        subst h1 h2
        rw [mapM'_ok_iff.2 hf] at hm
        injection hm with hm
        exact ⟨rfl, hm⟩
      have hself : ∃ vals, key :: values = key :: vals ∧
          List.Forall₂ (fun s x => float s = .ok x) vals vec := ⟨values, rfl, mapM'_ok_iff.1 hm⟩
      cases hn : st.size with
      | none =>
        simp only [Except.ok.injEq]
        constructor
        · rintro rfl
          exact ⟨key, vec, hself, by simp, rfl⟩
        · rintro ⟨w, v, hg, _, rfl⟩
          obtain ⟨rfl, rfl⟩ := huniq w v hg
          rfl
      | some n =>
        simp only []
        by_cases hnv : (vec.length : Int) = n
        · rw [if_neg (by simpa using hnv)]
          simp only [Except.ok.injEq]
          constructor
          · rintro rfl
            refine ⟨key, vec, hself, ?_, ?_⟩
            · intro m hm; injection hm with hm; omega
            · rw [hnv]
          · rintro ⟨w, v, hg, _, rfl⟩
            obtain ⟨rfl, rfl⟩ := huniq w v hg
            rw [hnv]
        · rw [if_pos (by simpa using hnv)]
          simp only [reduceCtorEq, false_iff]
          rintro ⟨w, v, hg, hlen, _⟩
          obtain ⟨rfl, rfl⟩ := huniq w v hg
          exact hnv (hlen n rfl).symm

theorem embInv_step {st st' : EmbState F} {data : List Str} {line : Str}
    (hh : ¬ (st.lineNr = 0 ∧ (splitWs line).length = 2)) (hi : EmbInv float st data)
    (h : readEmbeddingLine float st line = .ok st') :
    EmbInv float st' (data ++ [line]) ∧ st'.lineNr = st.lineNr + 1 := by
  obtain ⟨w, vec, hg, hsz, rfl⟩ := (readLine_data hh).1 h
  refine ⟨⟨?_, ?_⟩, rfl⟩
  · intro w' vec'
    simp only []
    rw [lastGives_snoc data line w vec hg, Dict.get?_set]
    split
    · simp [eq_comm]
    · exact hi.vecs w' vec'
  · intro l hl
    rcases List.mem_append.1 hl with hl | hl
    · obtain ⟨w', v', h1, h2⟩ := hi.lines l hl
      refine ⟨w', v', h1, ?_⟩
      have := hsz _ h2
      simp only [this]
    · simp only [List.mem_singleton] at hl
      subst hl
      exact ⟨w, vec, hg, rfl⟩

theorem embInv_loop (lines : List Str) {st st' : EmbState F} {data : List Str}
    (hn : st.lineNr ≠ 0) (hi : EmbInv float st data)
    (h : forM' (readEmbeddingLine float) st lines = .ok st') :
    EmbInv float st' (data ++ lines) ∧ (∀ n, st.size = some n → st'.size = some n) := by
  induction lines generalizing st data with
  | nil =>
    simp only [forM', Except.ok.injEq] at h
    subst h
    exact ⟨by simpa using hi, fun n h => h⟩
  | cons line lines ih =>
    simp only [forM'] at h
    split at h
    · rename_i st1 h1
      obtain ⟨hi1, hl1⟩ := embInv_step (fun hc => hn hc.1) hi h1
      obtain ⟨g1, g2⟩ := ih (by omega) hi1 h
      refine ⟨by simpa using g1, ?_⟩
      intro n hsz
      apply g2
      obtain ⟨w, vec, _, hlen, rfl⟩ := (readLine_data (fun hc => hn hc.1)).1 h1
      simp only [hlen n hsz]
    · simp at h

theorem embInv_empty (n : Nat) (size : Option Int) :
    EmbInv float { lineNr := n, size := size, vecs := Dict.empty } [] := by
  refine ⟨?_, by simp⟩
  intro w vec
  simp only [Dict.get?_empty, reduceCtorEq, false_iff]
  rintro ⟨pre, line, post, h, _⟩
  simp at h

theorem readLine_header {st st' : EmbState F} {line : Str}
    (hh : st.lineNr = 0 ∧ (splitWs line).length = 2) :
    readEmbeddingLine float st line = .ok st' ↔
      ∃ w v n, splitWs line = [w, v] ∧ pyInt v = .ok n ∧
        st' = { st with lineNr := st.lineNr + 1, size := some n } := by
  unfold readEmbeddingLine
  rw [if_pos hh]
  match hs : splitWs line, hh.2 with
  | [w, v], _ =>
    have : pyGet [w, v] 1 = .ok v := (pyGet_nat_ok (l := [w, v]) (i := 1)).2 rfl
    simp only [this]
    cases hv : pyInt v with
    | error e =>
      simp only [reduceCtorEq, false_iff]
      rintro ⟨w', v', n, h, h2, _⟩
      injection h with _ h
      injection h with h _
      subst h
      rw [hv] at h2
      simp at h2
    | ok n =>
      simp only [Except.ok.injEq]
      constructor
      · rintro rfl; exact ⟨w, v, n, rfl, hv, rfl⟩
      · rintro ⟨w', v', n', h, h2, rfl⟩
        injection h with _ h
        injection h with h _
        subst h
        rw [hv] at h2
        injection h2 with h2
        subst h2
        rfl

/-- C70: after reading a file successfully, a word has a vector exactly if a data line starts with
it, and it is the vector of the last such line; all data lines have vectors of the announced size,
which is the number in the header if there is one.  A file without any line leaves the size
undefined. -/
theorem C70_read (lines : List Str) (st : EmbState F) (h : readEmbeddings float lines = .ok st) :
    (∀ w vec, st.vecs.get? w = some vec ↔ LastGives float (dataLines lines) w vec) ∧
    (∀ line ∈ dataLines lines, ∃ w vec, LineGives float line w vec ∧
      st.size = some (vec.length : Int)) ∧
    (st.size = none ↔ lines = []) ∧
    (HasHeader lines → ∃ w v n, lines.head?.map splitWs = some [w, v] ∧ pyInt v = .ok n ∧
      st.size = some n) := by
  unfold readEmbeddings at h
  cases lines with
  | nil =>
    simp only [forM', Except.ok.injEq] at h
    subst h
    have hi := embInv_empty (float := float) 0 none
    exact ⟨fun w vec => hi.vecs w vec, by simp [dataLines, HasHeader], by simp,
      by simp [HasHeader]⟩
  | cons line lines =>
    simp only [forM'] at h
    split at h
    · rename_i st1 h1
      by_cases hh : (splitWs line).length = 2
      · obtain ⟨w, v, n, hs, hv, rfl⟩ := (readLine_header ⟨rfl, hh⟩).1 h1
        obtain ⟨hi, hsz⟩ := embInv_loop lines (by simp) (embInv_empty (0 + 1) (some n)) h
        have hd : dataLines (line :: lines) = lines := by
          simp [dataLines, HasHeader, hh]
        rw [hd]
        have hszn := hsz n rfl
        refine ⟨fun w vec => by simpa using hi.vecs w vec, by simpa using hi.lines, ?_, ?_⟩
        · simp [hszn]
        · intro _
          exact ⟨w, v, n, by simp [hs], hv, hszn⟩
      · have hnh : ¬ ((0 : Nat) = 0 ∧ (splitWs line).length = 2) := fun hc => hh hc.2
        obtain ⟨hi1, hl1⟩ := embInv_step hnh (embInv_empty 0 none) h1
        obtain ⟨w, vec, _, _, hst1⟩ := (readLine_data hnh).1 h1
        obtain ⟨hi, hsz⟩ := embInv_loop lines (by omega) hi1 h
        have hd : dataLines (line :: lines) = line :: lines := by
          simp [dataLines, HasHeader, hh]
        rw [hd]
        have hszn := hsz (vec.length : Int) (by rw [hst1])
        refine ⟨fun w vec => by simpa using hi.vecs w vec, by simpa using hi.lines, ?_, ?_⟩
        · simp [hszn]
        · intro hc
          exact absurd hc (by simp [HasHeader, hh])
    · simp at h

/-- C70: a file is accepted exactly if the header (if any) announces an integer and every data line
has a word followed by numbers, the same count on every line and the announced one. -/
theorem C70_accepts (lines : List Str) :
    (∃ st, readEmbeddings float lines = .ok st) ↔
      ∃ n : Int, (HasHeader lines → ∃ w v, lines.head?.map splitWs = some [w, v] ∧ pyInt v = .ok n) ∧
        ∀ line ∈ dataLines lines, ∃ w vec, LineGives float line w vec ∧ n = (vec.length : Int) := by
  constructor
  · rintro ⟨st, h⟩
    obtain ⟨_, h2, h3, h4⟩ := C70_read lines st h
    cases hs : st.size with
    | none =>
      rw [h3.1 hs]
      exact ⟨0, by simp [HasHeader], by simp [dataLines, HasHeader]⟩
    | some n =>
      refine ⟨n, ?_, ?_⟩
      · intro hh
        obtain ⟨w, v, m, g1, g2, g3⟩ := h4 hh
        rw [hs] at g3
        injection g3 with g3
        subst g3
        exact ⟨w, v, g1, g2⟩
      · intro line hl
        obtain ⟨w, vec, g1, g2⟩ := h2 line hl
        rw [hs] at g2
        injection g2 with g2
        exact ⟨w, vec, g1, g2⟩
  · rintro ⟨n, hhead, hdata⟩
    have loop : ∀ (ls : List Str) (st : EmbState F), st.lineNr ≠ 0 →
        (∀ m, st.size = some m → m = n) →
        (∀ line ∈ ls, ∃ w vec, LineGives float line w vec ∧ n = (vec.length : Int)) →
        ∃ st', forM' (readEmbeddingLine float) st ls = .ok st' := by
      intro ls
      induction ls with
      | nil => intro st _ _ _; exact ⟨st, rfl⟩
      | cons line ls ih =>
        intro st hn hsz hls
        obtain ⟨w, vec, hg, hlen⟩ := hls line (by simp)
        have h1 := (readLine_data (float := float) (st := st) (line := line)
          (fun hc => hn hc.1)).2 ⟨w, vec, hg, fun m hm => (hsz m hm).trans hlen, rfl⟩
        simp only [forM', h1]
        refine ih _ (by simp) ?_ (fun l hl => hls l (List.mem_cons_of_mem _ hl))
        intro m hm
        simp only [Option.some.injEq] at hm
        omega
    unfold readEmbeddings
    cases lines with
    | nil => exact ⟨_, rfl⟩
    | cons line lines =>
      by_cases hh : (splitWs line).length = 2
      · obtain ⟨w, v, hs, hv⟩ := hhead hh
        simp only [List.head?_cons, Option.map_some, Option.some.injEq] at hs
        have h1 := (readLine_header (float := float)
          (st := { lineNr := 0, size := none, vecs := Dict.empty }) (line := line) ⟨rfl, hh⟩).2
          ⟨w, v, n, hs, hv, rfl⟩
        simp only [forM', h1]
        refine loop lines _ (by simp) ?_ ?_
        · intro m hm
          simp only [Option.some.injEq] at hm
          exact hm.symm
        · have hd : dataLines (line :: lines) = lines := by simp [dataLines, HasHeader, hh]
          rwa [hd] at hdata
      · have hd : dataLines (line :: lines) = line :: lines := by simp [dataLines, HasHeader, hh]
        rw [hd] at hdata
        obtain ⟨w, vec, hg, hlen⟩ := hdata line (by simp)
        have h1 := (readLine_data (float := float)
          (st := { lineNr := 0, size := none, vecs := Dict.empty }) (line := line)
          (fun hc => hh hc.2)).2 ⟨w, vec, hg, by simp, rfl⟩
        simp only [forM', h1]
        refine loop lines _ (by simp) ?_ (fun l hl => hdata l (List.mem_cons_of_mem _ hl))
        intro m hm
        simp only [Option.some.injEq] at hm
        omega

/-- C70: the initial values of an embedding matrix: row 0 and one row per word, the rows of the
words being numbered from the base on without gaps; all rows have the announced size; the row of a
word holds its vector; ids below the base other than 0 stay without initial value. -/
theorem C70_initial_values (zero : F) (base : Int) (lines : List Str) (st : EmbState F)
    (h : readEmbeddings float lines = .ok st) :
    (lines = [] → initialValues zero (embeddingIds base st.vecs) st = .error .type) ∧
    (lines ≠ [] → ∃ n rows, st.size = some n ∧
      initialValues zero (embeddingIds base st.vecs) st = .ok rows ∧
      rows.map Prod.fst = some 0 :: (List.range st.vecs.entries.length).map
        (fun (i : Nat) => some (base + (i : Int))) ∧
      (∀ r ∈ rows, r.2.length = n.toNat) ∧
      ∀ w vec, st.vecs.get? w = some vec →
        ∃ i, (embeddingIds base st.vecs).get? w = some i ∧ (some i, vec) ∈ rows ∧
          base ≤ i ∧ i < st.vecs.entries.length + base) := by
  obtain ⟨h1, h2, h3, h4⟩ := C70_read lines st h
  refine ⟨fun he => by simp [initialValues, h3.2 he], ?_⟩
  intro hne
  obtain ⟨n, hn⟩ : ∃ n, st.size = some n := by
    cases hs : st.size with
    | none => exact absurd (h3.1 hs) hne
    | some n => exact ⟨n, rfl⟩
  have hget : ∀ w i, (embeddingIds base st.vecs).get? w = some i ↔
      ∃ j : Nat, st.vecs.keys[j]? = some w ∧ i = base + j :=
    enumerate_get? st.vecs.nodup base
  refine ⟨n, _, hn, by rw [initialValues, hn], ?_, ?_, ?_⟩
  · simp only [List.map_cons, List.map_map, PADDING, List.cons.injEq, true_and]
    apply List.ext_getElem (by simp)
    intro j hj1 hj2
    simp only [List.getElem_map, Function.comp_apply, List.getElem_range]
    refine (hget _ _).2 ⟨j, ?_, rfl⟩
    simp only [List.length_map] at hj1
    rw [Dict.keys, List.getElem?_map, List.getElem?_eq_getElem hj1]
    rfl
  · intro r hr
    rcases List.mem_cons.1 hr with rfl | hr
    · simp
    · obtain ⟨p, hp, rfl⟩ := List.mem_map.1 hr
      obtain ⟨pre, line, post, hd, hg, _⟩ := (h1 p.1 p.2).1 (Dict.get?_mem.2 hp)
      obtain ⟨w', vec', hg', hsz⟩ := h2 line (by rw [hd]; simp)
      obtain ⟨vals, e1, f1⟩ := hg
      obtain ⟨vals', e2, f2⟩ := hg'
      rw [e1] at e2
      injection e2 with _ e2
      subst e2
      rw [hn] at hsz
      injection hsz with hsz
      have l1 := f1.length_eq
      have l2 := f2.length_eq
      simp only
      omega
  · intro w vec hw
    have hmem := Dict.get?_mem.1 hw
    obtain ⟨j, hj⟩ := List.mem_iff_getElem?.1 hmem
    have hlt := (List.getElem?_eq_some_iff.1 hj).1
    have hk : st.vecs.keys[j]? = some w := by
      rw [Dict.keys, List.getElem?_map, hj]; rfl
    have hid := (hget w (base + j)).2 ⟨j, hk, rfl⟩
    refine ⟨base + j, hid, ?_, by omega, by omega⟩
    refine List.mem_cons_of_mem _ (List.mem_map.2 ⟨(w, vec), hmem, ?_⟩)
    simp [hid]

end

namespace Demo

/-- Numbers for the examples: Python integers only. -/
def float : Str → Res Int := pyInt

def embFile : List Str := ["2 2\n".toList, "the 1 0\n".toList, "a 0 5\n".toList, "the 7 7\n".toList]

end Demo

example : ∃ st, readEmbeddings Demo.float Demo.embFile = .ok st ∧
    initialValues 0 (embeddingIds 2 st.vecs) st =
      .ok [(some 0, [0, 0]), (some 2, [7, 7]), (some 3, [0, 5])] := by
  refine ⟨_, rfl, ?_⟩
  decide +kernel

/-- One-dimensional embeddings without a header are misread: the first word is taken as header. -/
example : ∃ st, readEmbeddings Demo.float ["a 1".toList, "b 1".toList] = .ok st ∧
    st.vecs.get? "a".toList = none := by
  refine ⟨_, rfl, ?_⟩
  decide +kernel

end Verif
