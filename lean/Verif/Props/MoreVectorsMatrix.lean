import Verif.Props.MoreVectors
import Verif.Props.Layers

/-! # The matrix of a longer file of pretrained vectors -/

namespace Verif

/-- C168: a network whose matrix of word vectors was initialized from a file with added lines is given, for every
word of the shorter file that no added line is about, the same number of a row as a network initialized from the shorter
file, and that row holds the same vector; and if an added line is about a word then the row holds the vector of the last
such line. -/
theorem C168_matrix {F : Type} (float : Str → Res F) (zero : F) (p p' : Pre F) (more : List Str)
    (hb : p.base = 2) (hb' : p'.base = 2) (hl : p'.lines = p.lines ++ more)
    (hr : readEmbeddings float p.lines = .ok p.st) (hr' : readEmbeddings float p'.lines = .ok p'.st)
    (m m' : Mat F) (h : HoldsFile float zero p m) (h' : HoldsFile float zero p' m')
    (lower : Str → Str) (lowercase : Bool) (text : Str) (vec : List F)
    (hv : LastGives float (dataLines p.lines) (if lowercase then lower text else text) vec) :
    wordId lower (embeddingIds p'.base p'.st.vecs) lowercase text =
      wordId lower (embeddingIds p.base p.st.vecs) lowercase text ∧
    m.lookup (wordId lower (embeddingIds p.base p.st.vecs) lowercase text) = some vec ∧
    (¬ Mentions more (if lowercase then lower text else text) →
      m'.lookup (wordId lower (embeddingIds p'.base p'.st.vecs) lowercase text) = some vec) ∧
    (∀ vec', LastGives float more (if lowercase then lower text else text) vec' →
      m'.lookup (wordId lower (embeddingIds p'.base p'.st.vecs) lowercase text) = some vec') := by
  have hne : p.lines ≠ [] := by
    intro he
    obtain ⟨pre, l, post, hd, _⟩ := hv
    rw [he] at hd
    simp [dataLines, HasHeader] at hd
  rw [hl] at hr'
  obtain ⟨_, g2, _, g4, _⟩ := C168_more p.lines more hne (2 : Int) p.st p'.st hr hr'
  have hw := (C99_words float zero p hb m h lower lowercase text).1 vec hv
  obtain ⟨hw', _⟩ := C99_words float zero p' hb' m' h' lower lowercase text
  have hget := ((C70_read p.lines p.st hr).1 _ _).2 hv
  refine ⟨?_, hw, ?_, ?_⟩
  · obtain ⟨i, h1, _⟩ := h.words _ vec hv
    rw [hb] at h1
    have h2 := g4 _ i h1
    unfold wordId
    rw [hb, hb', show ((2 : Nat) : Int) = 2 from rfl]
    rw [show ((2 : Nat) : Int) = 2 from rfl] at h1
    rw [h1, h2]
  · intro hm
    have := (C70_read _ _ hr').1 _ _ |>.1 ((g2 _ hm).trans hget)
    exact hw' vec (by rw [hl]; exact this)
  · rintro vec' ⟨pre, l, post, hd, hg, hp⟩
    refine hw' vec' ?_
    have hh : dataLines p'.lines = dataLines p.lines ++ more := by
      rw [hl]
      cases hc : p.lines with
      | nil => exact absurd hc hne
      | cons a ls =>
        by_cases hx : HasHeader (a :: ls)
        · rw [dataLines, dataLines, if_pos hx, if_pos (show HasHeader (a :: ls ++ more) from hx)]
          rfl
        · rw [dataLines, dataLines, if_neg hx, if_neg (show ¬ HasHeader (a :: ls ++ more) from hx)]
    exact ⟨dataLines p.lines ++ pre, l, post, by rw [hh, hd, List.append_assoc], hg, hp⟩

namespace Demo

def preLonger : Pre Int :=
  { param := ['p'], var := ['v'], base := 2, lines := embFile ++ ["an 3 3\n".toList, "a 1 1\n".toList]
    st := (readEmbeddings float (embFile ++ ["an 3 3\n".toList, "a 1 1\n".toList])).toOption.getD
      ⟨0, none, Dict.empty⟩
    vals := [(some 0, [0, 0]), (some 2, [7, 7]), (some 3, [1, 1]), (some 4, [3, 3])]
    before := ⟨2, [[9, 9], [8, 8], [6, 6], [5, 5], [4, 4]]⟩ }

def randomLonger : Dict Str (Mat Int) := Dict.ofList [(['v'], preLonger.before)]

def initialLonger : Dict Str (List (Option Int × List Int)) := Dict.ofList [(['p'], preLonger.vals)]

end Demo

example : Demo.preLonger.Ok Demo.float 0 Demo.randomLonger Demo.initialLonger := by
  refine ⟨by decide, by rfl, by decide +kernel, by decide +kernel, by decide +kernel, by decide +kernel,
    by decide +kernel⟩
example : ((initializeAll Demo.randomLonger Demo.initialLonger [.global, .matrix ['p'] ['v']]).map
      Dict.entries).toOption =
    some [(['v'], ⟨2, [[0, 0], [8, 8], [7, 7], [1, 1], [3, 3]]⟩)] := by decide +kernel

end Verif
