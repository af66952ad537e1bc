import Verif.Spec.MoreVectors
import Verif.Spec.Trainable
import Verif.Props.Embeddings

/-! # Longer files of pretrained vectors -/

namespace Verif

section
variable {F : Type} {float : Str → Res F}

theorem readLine_lineNr {st st' : EmbState F} {line : Str}
    (h : readEmbeddingLine float st line = .ok st') : st'.lineNr = st.lineNr + 1 := by
  by_cases hh : st.lineNr = 0 ∧ (splitWs line).length = 2
  · obtain ⟨_, _, _, _, _, rfl⟩ := (readLine_header hh).1 h
    rfl
  · obtain ⟨_, _, _, _, rfl⟩ := (readLine_data hh).1 h
    rfl

theorem readLines_lineNr (lines : List Str) {st st' : EmbState F}
    (h : forM' (readEmbeddingLine float) st lines = .ok st') : st'.lineNr = st.lineNr + lines.length := by
  induction lines generalizing st with
  | nil => injection h with h; subst h; rfl
  | cons line lines ih =>
    simp only [forM'] at h
    split at h
    · rename_i st1 h1
      rw [ih h, readLine_lineNr h1, List.length_cons]
      omega
    · cases h

theorem vectorLine_iff {n : Int} {line : Str} :
    VectorLine float n line ↔ ∃ w vec, LineGives float line w vec ∧ n = (vec.length : Int) := by
  constructor
  · rintro ⟨w, vals, h1, h2, h3⟩
    have : ∀ vals : List Str, (∀ s ∈ vals, ∃ x, float s = .ok x) →
        ∃ vec, List.Forall₂ (fun s x => float s = .ok x) vals vec := by
      intro vals
      induction vals with
      | nil => intro _; exact ⟨[], .nil⟩
      | cons s vals ih =>
        intro h
        obtain ⟨x, hx⟩ := h s (by simp)
        obtain ⟨vec, hv⟩ := ih (fun t ht => h t (List.mem_cons_of_mem _ ht))
        exact ⟨x :: vec, .cons hx hv⟩
    obtain ⟨vec, hv⟩ := this vals h3
    exact ⟨w, vec, ⟨vals, h1, hv⟩, by rw [h2, hv.length_eq]⟩
  · rintro ⟨w, vec, ⟨vals, h1, hv⟩, h2⟩
    refine ⟨w, vals, h1, by rw [h2, hv.length_eq], ?_⟩
    intro s hs
    clear h1 h2
    induction hv with
    | nil => cases hs
    | cons hx _ ih =>
      rcases List.mem_cons.1 hs with rfl | hs
      · exact ⟨_, hx⟩
      · exact ih hs

/-- What reading further lines does to a state that has read some lines already. -/
theorem readLines_more (more : List Str) {st st' : EmbState F} {n : Int} (hn : st.lineNr ≠ 0)
    (hs : st.size = some n) (h : forM' (readEmbeddingLine float) st more = .ok st') :
    st'.size = some n ∧ (∀ l ∈ more, VectorLine float n l) ∧ st.vecs.keys <+: st'.vecs.keys ∧
      (∀ w, w ∈ st'.vecs.keys ↔ w ∈ st.vecs.keys ∨ Mentions more w) ∧
      ∀ w, ¬ Mentions more w → st'.vecs.get? w = st.vecs.get? w := by
  induction more generalizing st with
  | nil =>
    injection h with h
    subst h
    exact ⟨hs, by simp, List.prefix_rfl, fun w => by simp [Mentions], fun _ _ => rfl⟩
  | cons line more ih =>
    simp only [forM'] at h
    split at h
    · rename_i st1 h1
      obtain ⟨w, vec, hg, hsz, rfl⟩ := (readLine_data (fun hc => hn hc.1)).1 h1
      have hlen := hsz n hs
      obtain ⟨g1, g2, g3, g4, g5⟩ := ih (st := ⟨st.lineNr + 1, some (vec.length : Int), st.vecs.set w vec⟩)
        (by simp) (by rw [hlen]) h
      have hhead : (splitWs line).head? = some w := by
        obtain ⟨vals, e, _⟩ := hg
        rw [e]; rfl
      have hm : ∀ w', Mentions (line :: more) w' ↔ w' = w ∨ Mentions more w' := by
        intro w'
        simp only [Mentions, List.mem_cons, exists_eq_or_imp, hhead, Option.some.injEq]
        rw [eq_comm (a := w)]
      have hk := Dict.keys_set st.vecs w vec
      refine ⟨g1, ?_, ?_, ?_, ?_⟩
      · intro l hl
        rcases List.mem_cons.1 hl with rfl | hl
        · exact vectorLine_iff.2 ⟨w, vec, hg, hlen⟩
        · exact g2 l hl
      · refine List.IsPrefix.trans ?_ g3
        rw [hk]
        split
        · exact List.prefix_rfl
        · exact List.prefix_append _ _
      · intro w'
        rw [g4 w', hm w', hk]
        split
        · rename_i hmem
          constructor
          · rintro (h | h)
            · exact .inl h
            · exact .inr (.inr h)
          · rintro (h | rfl | h)
            · exact .inl h
            · exact .inl hmem
            · exact .inr h
        · simp only [List.mem_append, List.mem_singleton, or_assoc]
      · intro w' hw'
        rw [hm w', not_or] at hw'
        rw [g5 w' hw'.2]
        simp only []
        rw [Dict.get?_set, if_neg hw'.1]
    · cases h

/-- C168: which lines may be added to a file of vectors that can be read, with or without header:
those with a word and as many numbers as the file has in every vector. -/
theorem C168_may_add (lines more : List Str) (hne : lines ≠ []) (st : EmbState F)
    (h : readEmbeddings float lines = .ok st) :
    ∃ n, st.size = some n ∧
      ((∃ st', readEmbeddings float (lines ++ more) = .ok st') ↔ ∀ l ∈ more, VectorLine float n l) := by
  obtain ⟨r1, r2, r3, r4⟩ := C70_read lines st h
  obtain ⟨n, hn⟩ : ∃ n, st.size = some n := by
    cases hs : st.size with
    | none => exact absurd (r3.1 hs) hne
    | some n => exact ⟨n, rfl⟩
  have hpos : st.lineNr ≠ 0 := by
    have := readLines_lineNr lines h
    have : 0 < lines.length := List.length_pos_iff.2 hne
    omega
  refine ⟨n, hn, ?_, ?_⟩
  · rintro ⟨st', h'⟩
    rw [readEmbeddings, forM'_append, show forM' _ _ lines = .ok st from h] at h'
    exact (readLines_more more hpos hn h').2.1
  · intro hm
    have hh : HasHeader (lines ++ more) ↔ HasHeader lines := by
      cases lines with
      | nil => exact absurd rfl hne
      | cons => rfl
    have hd : dataLines (lines ++ more) = dataLines lines ++ more := by
      unfold dataLines
      by_cases hc : HasHeader lines
      · rw [if_pos hc, if_pos (hh.2 hc), List.tail_append_of_ne_nil hne]
      · rw [if_neg hc, if_neg (fun x => hc (hh.1 x))]
    refine (C70_accepts (lines ++ more)).2 ⟨n, ?_, ?_⟩
    · intro hc
      obtain ⟨w, v, m, e1, e2, e3⟩ := r4 (hh.1 hc)
      rw [hn] at e3
      injection e3 with e3
      refine ⟨w, v, ?_, by rw [e2, e3]⟩
      cases lines with
      | nil => exact absurd rfl hne
      | cons a l => exact e1
    · intro l hl
      rw [hd] at hl
      rcases List.mem_append.1 hl with hl | hl
      · obtain ⟨w, vec, g, e⟩ := r2 l hl
        rw [hn] at e
        injection e with e
        exact ⟨w, vec, g, e⟩
      · exact vectorLine_iff.1 (hm l hl)

/-- C168: if lines are added to a file of vectors and both files can be read, then the vectors have
the same size, every word that no added line is about has the vector it had or still has none, the
words with vectors are those there were and those the added lines are about, and every word that
had an id has the same id, also if an added line gives it another vector; the words that are new
have larger ids. -/
theorem C168_more (lines more : List Str) (hne : lines ≠ []) (base : Int) (st st' : EmbState F)
    (h : readEmbeddings float lines = .ok st) (h' : readEmbeddings float (lines ++ more) = .ok st') :
    st'.size = st.size ∧
    (∀ w, ¬ Mentions more w → st'.vecs.get? w = st.vecs.get? w) ∧
    (∀ w, (∃ vec, st'.vecs.get? w = some vec) ↔ (∃ vec, st.vecs.get? w = some vec) ∨ Mentions more w) ∧
    (∀ w i, (embeddingIds base st.vecs).get? w = some i → (embeddingIds base st'.vecs).get? w = some i) ∧
    ∀ w i w' i', (embeddingIds base st.vecs).get? w = some i →
      (embeddingIds base st.vecs).get? w' = none → (embeddingIds base st'.vecs).get? w' = some i' → i < i' := by
  obtain ⟨n, hn, _⟩ := C168_may_add lines more hne st h
  have hpos : st.lineNr ≠ 0 := by
    have := readLines_lineNr lines h
    have : 0 < lines.length := List.length_pos_iff.2 hne
    omega
  rw [readEmbeddings, forM'_append, show forM' _ _ lines = .ok st from h] at h'
  obtain ⟨g1, _, g3, g4, g5⟩ := readLines_more more hpos hn h'
  have hget : ∀ (s : EmbState F) w i, (embeddingIds base s.vecs).get? w = some i ↔
      ∃ j : Nat, s.vecs.keys[j]? = some w ∧ i = base + j := fun s => enumerate_get? s.vecs.nodup base
  have hkey : ∀ (s : EmbState F) w, (∃ vec, s.vecs.get? w = some vec) ↔ w ∈ s.vecs.keys := by
    intro s w
    rw [← Dict.get?_isSome, Option.isSome_iff_exists]
  obtain ⟨rest, hrest⟩ := g3
  refine ⟨by rw [g1, hn], g5, fun w => by rw [hkey, hkey, g4 w], ?_, ?_⟩
  · intro w i hi
    obtain ⟨j, hj, rfl⟩ := (hget st w i).1 hi
    refine (hget st' w _).2 ⟨j, ?_, rfl⟩
    rw [← hrest, List.getElem?_append_left (List.getElem?_eq_some_iff.1 hj).1]
    exact hj
  · intro w i w' i' hi hno hi'
    obtain ⟨j, hj, rfl⟩ := (hget st w i).1 hi
    obtain ⟨j', hj', rfl⟩ := (hget st' w' i').1 hi'
    have hlt := (List.getElem?_eq_some_iff.1 hj).1
    by_cases hlt' : j' < st.vecs.keys.length
    · rw [← hrest, List.getElem?_append_left hlt'] at hj'
      rw [(hget st w' _).2 ⟨j', hj', rfl⟩] at hno
      cases hno
    · omega

/-- C168: the order of the lines with vectors does not matter for the vectors if no word has two
lines. -/
theorem C168_order (lines lines' : List Str) (st : EmbState F) (h : readEmbeddings float lines = .ok st)
    (hp : (dataLines lines').Perm (dataLines lines)) (hh : HasHeader lines' ↔ HasHeader lines)
    (hhead : HasHeader lines → lines'.head? = lines.head?)
    (hone : (dataLines lines).Pairwise (fun l m => (splitWs l).head? ≠ (splitWs m).head?)) :
    ∃ st', readEmbeddings float lines' = .ok st' ∧ st'.size = st.size ∧
      ∀ w, st'.vecs.get? w = st.vecs.get? w := by
  obtain ⟨r1, r2, r3, r4⟩ := C70_read lines st h
  obtain ⟨n, a1, a2⟩ := (C70_accepts (float := float) lines).1 ⟨st, h⟩
  obtain ⟨st', h'⟩ := (C70_accepts (float := float) lines').2 ⟨n, fun hc => by
    rw [hhead (hh.1 hc)]; exact a1 (hh.1 hc), fun l hl => a2 l (hp.mem_iff.1 hl)⟩
  obtain ⟨s1, s2, s3, s4⟩ := C70_read lines' st' h'
  have hgives : ∀ (data : List Str), data.Pairwise (fun l m => (splitWs l).head? ≠ (splitWs m).head?) →
      ∀ w vec, LastGives float data w vec ↔ ∃ l ∈ data, LineGives float l w vec := by
    intro data hd w vec
    constructor
    · rintro ⟨pre, l, post, rfl, hg, _⟩
      exact ⟨l, by simp, hg⟩
    · rintro ⟨l, hl, hg⟩
      obtain ⟨pre, post, rfl⟩ := List.append_of_mem hl
      refine ⟨pre, l, post, rfl, hg, ?_⟩
      intro m hm hw
      have := (List.pairwise_cons.1 (List.pairwise_append.1 hd).2.1).1 m hm
      obtain ⟨vals, e, _⟩ := hg
      rw [e, hw] at this
      exact this rfl
  have hone' : (dataLines lines').Pairwise (fun l m => (splitWs l).head? ≠ (splitWs m).head?) :=
    (hp.pairwise_iff (fun h => h.symm)).2 hone
  refine ⟨st', h', ?_, ?_⟩
  · by_cases hc : HasHeader lines
    · obtain ⟨w, v, m, e1, e2, e3⟩ := r4 hc
      obtain ⟨w', v', m', f1, f2, f3⟩ := s4 (hh.2 hc)
      rw [hhead hc, e1] at f1
      simp only [Option.some.injEq, List.cons.injEq, and_true] at f1
      rw [← f1.2, e2] at f2
      injection f2 with f2
      rw [e3, f3, f2]
    · have d1 : dataLines lines = lines := if_neg hc
      have d2 : dataLines lines' = lines' := if_neg (fun x => hc (hh.1 x))
      rw [d1, d2] at hp
      cases lines with
      | nil =>
        rw [hp.eq_nil] at s3
        rw [r3.2 rfl, s3.2 rfl]
      | cons l ls =>
        obtain ⟨w, vec, g, e⟩ := r2 l (by rw [d1]; simp)
        obtain ⟨w', vec', g', e'⟩ := s2 l (by rw [d2]; exact hp.mem_iff.2 (by simp))
        obtain ⟨vals, q, p⟩ := g
        obtain ⟨vals', q', p'⟩ := g'
        rw [q] at q'
        injection q' with _ q'
        subst q'
        rw [e, e', ← p.length_eq, ← p'.length_eq]
  · intro w
    apply Option.ext
    intro vec
    rw [s1 w vec, r1 w vec, hgives _ hone', hgives _ hone]
    exact ⟨fun ⟨l, hl, hg⟩ => ⟨l, hp.mem_iff.1 hl, hg⟩, fun ⟨l, hl, hg⟩ => ⟨l, hp.mem_iff.2 hl, hg⟩⟩

end

example : ∃ st st', readEmbeddings Demo.float Demo.embFile = .ok st ∧
    readEmbeddings Demo.float (Demo.embFile ++ ["an 3 3\n".toList, "a 1 1\n".toList]) = .ok st' ∧
    st.vecs.entries = [("the".toList, [7, 7]), ("a".toList, [0, 5])] ∧
    st'.vecs.entries = [("the".toList, [7, 7]), ("a".toList, [1, 1]), ("an".toList, [3, 3])] ∧
    (embeddingIds 2 st'.vecs).entries = [("the".toList, 2), ("a".toList, 3), ("an".toList, 4)] :=
  ⟨_, _, rfl, rfl, by decide +kernel, by decide +kernel, by decide +kernel⟩

example : ∃ st st', readEmbeddings Demo.float ["the 1 0\n".toList, "a 0 5\n".toList] = .ok st ∧
    readEmbeddings Demo.float ["a 0 5\n".toList, "the 1 0\n".toList] = .ok st' ∧
    st.vecs.entries = [("the".toList, [1, 0]), ("a".toList, [0, 5])] ∧
    st'.vecs.entries = [("a".toList, [0, 5]), ("the".toList, [1, 0])] :=
  ⟨_, _, rfl, rfl, by decide +kernel, by decide +kernel⟩

end Verif
