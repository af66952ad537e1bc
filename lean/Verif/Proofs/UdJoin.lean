import Verif.Spec.UdJoin
import Verif.Props.EvalRel

/-!
# Lemmas for C106: loading two files behind each other
-/

namespace Verif

/-! ### Lines -/

theorem fileLines_nl (a b : Str) : fileLines (a ++ '\n' :: b) = fileLines (a ++ ['\n']) ++ fileLines b := by
  induction a with
  | nil => simp [fileLines]
  | cons c cs ih =>
    simp only [List.cons_append, fileLines]
    split
    · rw [ih]; rfl
    · rw [ih]
      have : fileLines (cs ++ ['\n']) ≠ [] := by
        cases cs with
        | nil => simp [fileLines]
        | cons d ds =>
          simp only [List.cons_append, fileLines]
          split
          · simp
          · split <;> simp
      cases h : fileLines (cs ++ ['\n']) with
      | nil => exact absurd h this
      | cons w ws => rfl

theorem udFileLines_append {a b : Str} (h : a = [] ∨ a.getLast? = some '\n') :
    udFileLines (a ++ b) = udFileLines a ++ udFileLines b := by
  unfold udFileLines
  rcases h with rfl | h
  · simp [fileLines]
  · obtain ⟨l, rfl⟩ := List.getLast?_eq_some_iff.1 h
    rw [List.append_assoc, List.singleton_append, fileLines_nl, List.map_append]

theorem UdSents.comments {cs ls : List Str} {sents : List (List UdToken)} (hc : ∀ l ∈ cs, l.head? = some '#')
    (h : UdSents ls sents) : UdSents (cs ++ ls) sents := by
  cases h with
  | nil h => exact .nil (fun l hl => (List.mem_append.1 hl).elim (hc l) (h l))
  | cons h1 h2 h3 h4 =>
    rw [← List.append_assoc]
    exact .cons (fun l hl => (List.mem_append.1 hl).elim (hc l) (h1 l)) h2 h3 h4

theorem UdSents.append {ls ms : List Str} {a b : List (List UdToken)} (h1 : UdSents ls a) (h2 : UdSents ms b) :
    UdSents (ls ++ ms) (a ++ b) := by
  induction h1 with
  | nil h => exact UdSents.comments h h2
  | cons c1 c2 c3 _ ih =>
    simp only [List.append_assoc, List.cons_append]
    exact .cons c1 c2 c3 ih

/-! ### Layout -/

theorem tokSpans_shift (n off : Nat) (us : List UdToken) : tokSpans (off + n) us = (tokSpans off us).map (Span.shift n) := by
  induction us generalizing off with
  | nil => rfl
  | cons u us ih =>
    simp only [tokSpans, List.map_cons, Span.shift]
    rw [show off + n + u.form.length = off + u.form.length + n by omega, ih]

theorem tokWords_shift (n off : Nat) (us : List UdToken) :
    tokWords (off + n) us = (tokWords off us).map (fun p => (p.1.shift n, p.2)) := by
  induction us generalizing off with
  | nil => rfl
  | cons u us ih =>
    simp only [tokWords, List.map_append, List.map_map]
    rw [show off + n + u.form.length = off + u.form.length + n by omega, ih]
    rfl

theorem sentSpans_shift (n off : Nat) (us : List (List UdToken)) :
    sentSpans (off + n) us = (sentSpans off us).map (Span.shift n) := by
  induction us generalizing off with
  | nil => rfl
  | cons u us ih =>
    simp only [sentSpans, List.map_cons, Span.shift]
    rw [show off + n + udLength u = off + udLength u + n by omega, ih]

theorem linkOf_shift {o k : Nat} {r : List Str} {l l' : Link} (h0 : ∀ h, pyInt (colOf r colHEAD) = .ok h → 0 ≤ h)
    (h : LinkOf o r l) (h' : LinkOf (o + k) r l') : l' = l.shift k := by
  obtain ⟨x, x1, x2, x3, _⟩ := h
  obtain ⟨y, y1, y2, y3, _⟩ := h'
  rw [x1] at y1
  injection y1 with y1
  subst y1
  have := h0 x x1
  rcases Int.lt_or_eq_of_le this with hx | hx
  · rw [x3 hx, y3 hx]
    simp only [Link.shift, Link.word.injEq]
    omega
  · rw [x2 hx.symm, y2 hx.symm]; rfl

theorem linksOf_shift {k : Nat} {sents : List (List UdToken)} :
    ∀ {o : Nat} {ls ls' : List Link}, (∀ us ∈ sents, ∀ r ∈ rowsOf us, ∀ h, pyInt (colOf r colHEAD) = .ok h → 0 ≤ h) →
      LinksOf o sents ls → LinksOf (o + k) sents ls' → ls' = ls.map (Link.shift k) := by
  induction sents with
  | nil => intro o ls ls' _ h h'; cases h; cases h'; rfl
  | cons us sents ih =>
    intro o ls ls' h0 h h'
    obtain ⟨a, b, rfl, h1, h2⟩ := h
    obtain ⟨a', b', rfl, h1', h2'⟩ := h'
    rw [List.map_append]
    rw [show o + k + (rowsOf us).length = o + (rowsOf us).length + k by omega] at h2'
    rw [ih (fun v hv => h0 v (List.mem_cons_of_mem _ hv)) h2 h2']
    congr 1
    have hr := h0 us List.mem_cons_self
    clear h2 h2'
    generalize rowsOf us = rows at *
    induction h1 generalizing a' with
    | nil => cases h1'; rfl
    | cons x _ ih' =>
      cases h1' with
      | cons x' xs' =>
        rw [List.map_cons, linkOf_shift (hr _ List.mem_cons_self) x x',
          ih' _ xs' (fun r hr' => hr r (List.mem_cons_of_mem _ hr'))]

theorem words_ext {ws vs : List UDWord}
    (h1 : ws.map (fun w => (w.span, w.multi, w.columns)) = vs.map (fun w => (w.span, w.multi, w.columns)))
    (h2 : ws.map UDWord.parent = vs.map UDWord.parent) : ws = vs := by
  induction ws generalizing vs with
  | nil => cases vs with
    | nil => rfl
    | cons _ _ => cases h1
  | cons w ws ih =>
    cases vs with
    | nil => cases h1
    | cons v vs =>
      simp only [List.map_cons, List.cons.injEq, Prod.mk.injEq] at h1 h2
      obtain ⟨⟨e1, e2, e3⟩, e4⟩ := h1
      rw [ih e4 h2.2]
      congr 1
      cases w; cases v
      simp only at e1 e2 e3 h2
      rw [e1, e2, e3, h2.1]

theorem LinksOf.split {a b : List (List UdToken)} : ∀ {o : Nat} {ls : List Link}, LinksOf o (a ++ b) ls →
    ∃ x y, ls = x ++ y ∧ LinksOf o a x ∧ LinksOf (o + (rowsOf a.flatten).length) b y := by
  induction a with
  | nil => intro o ls h; exact ⟨[], ls, rfl, rfl, by simpa [rowsOf] using h⟩
  | cons us a ih =>
    intro o ls h
    obtain ⟨u, v, rfl, h1, h2⟩ := h
    obtain ⟨x, y, rfl, h3, h4⟩ := ih h2
    refine ⟨u ++ x, y, by rw [List.append_assoc], ⟨u, x, rfl, h1, h3⟩, ?_⟩
    rw [List.flatten_cons]
    simpa [rowsOf, Nat.add_assoc] using h4

theorem LinksOf.length {sents : List (List UdToken)} : ∀ {o : Nat} {ls : List Link}, LinksOf o sents ls →
    ls.length = (rowsOf sents.flatten).length := by
  induction sents with
  | nil => intro o ls h; cases h; rfl
  | cons us sents ih =>
    intro o ls h
    obtain ⟨u, v, rfl, h1, h2⟩ := h
    rw [List.length_append, ← h1.length_eq, ih h2, List.flatten_cons]
    simp [rowsOf]

theorem UdOf.rows {sents : List (List UdToken)} {ud : UD} (h : UdOf sents ud) :
    ud.words.map UDWord.columns = rowsOf sents.flatten := by
  rw [← rowsOf_eq 0, ← h.words, List.map_map]
  rfl

theorem UdOf.headsOk {sents : List (List UdToken)} {ud : UD} (h : UdOf sents ud) (hk : HeadsOk ud) :
    ∀ us ∈ sents, ∀ r ∈ rowsOf us, ∀ x, pyInt (colOf r colHEAD) = .ok x → 0 ≤ x := by
  intro us hus r hr x hx
  have : r ∈ rowsOf sents.flatten := by
    obtain ⟨u, hu, hr⟩ := List.mem_flatMap.1 hr
    exact List.mem_flatMap.2 ⟨u, List.mem_flatten.2 ⟨us, hus, hu⟩, hr⟩
  rw [← h.rows] at this
  obtain ⟨w, hw, rfl⟩ := List.mem_map.1 this
  exact hk w hw x hx

/-- The treebank of two sequences of sentences is the join of their treebanks. -/
theorem UdOf.join {s1 s2 : List (List UdToken)} {a b ud : UD} (h1 : UdOf s1 a) (h2 : UdOf s2 b) (ha : HeadsOk a) (hb : HeadsOk b)
    (h : UdOf (s1 ++ s2) ud) : ud = a.join b := by
  have hlen : a.characters.length = udLength s1.flatten := by rw [h1.characters]; rfl
  have hwords : a.words.length = (rowsOf s1.flatten).length := by rw [← h1.rows, List.length_map]
  have e1 : ud.characters = (a.join b).characters := by
    rw [h.characters]
    simp [UD.join, h1.characters, h2.characters]
  have e2 : ud.tokens = (a.join b).tokens := by
    rw [h.tokens, List.flatten_append, tokSpans_append, tokSpans_shift, ← h1.tokens, ← h2.tokens, ← hlen]
    rfl
  have e3 : ud.sentences = (a.join b).sentences := by
    rw [h.sentences, sentSpans_append, sentSpans_shift, ← h1.sentences, ← h2.sentences, ← hlen]
    rfl
  have e4 : ud.words = (a.join b).words := by
    apply words_ext
    · rw [h.words, List.flatten_append, tokWords_append, tokWords_shift, ← h1.words, ← h2.words, ← hlen]
      simp [UD.join, UDWord.shift]
    · obtain ⟨x, y, e, l1, l2⟩ := h.links.split
      rw [e]
      have hx : x = a.words.map UDWord.parent := by
        have := linksOf_shift (k := 0) (h1.headsOk ha) h1.links l1
        rw [this]
        have : Link.shift 0 = id := by funext l; cases l <;> rfl
        rw [this, List.map_id]
      have hy := linksOf_shift (h2.headsOk hb) h2.links l2
      rw [hx, hy]
      simp [UD.join, UDWord.shift, hwords]
  cases ud
  simp only at e1 e2 e3 e4
  rw [e1, e2, e3, e4]

/-- Two loadable files behind each other. -/
theorem loadConllu_append {d : Nat} {s t : Str} {a b : UD} (hs : s = [] ∨ s.getLast? = some '\n')
    (h1 : loadConllu d s = .ok a) (h2 : loadConllu d t = .ok b) (ha : HeadsOk a) (hb : HeadsOk b) :
    loadConllu d (s ++ t) = .ok (a.join b) := by
  obtain ⟨s1, x1, x2, x3⟩ := C24_loaded_trees h1
  obtain ⟨s2, y1, y2, y3⟩ := C24_loaded_trees h2
  have nonneg : ∀ (sents : List (List UdToken)) (ud : UD), UdOf sents ud → HeadsOk ud →
      ∀ us ∈ sents, ∀ hs, HeadsOf (rowsOf us) hs → ∀ x ∈ hs, 0 ≤ x := by
    intro sents ud hu hk us hus hs hh x hx
    have := hu.headsOk hk us hus
    clear hus
    generalize rowsOf us = rows at *
    induction hh with
    | nil => cases hx
    | cons h _ ih =>
      rcases List.mem_cons.1 hx with rfl | hx
      · exact this _ List.mem_cons_self x h
      · exact ih hx (fun r hr => this r (List.mem_cons_of_mem _ hr))
  have ok1 := (C78_accepts_iff (depth := d) x1 (fun us hus => by
    obtain ⟨hs, q1, _⟩ := x3 us hus
    exact ⟨hs, q1, nonneg s1 a x2 ha us hus hs q1⟩)).1 ⟨a, h1⟩
  have ok2 := (C78_accepts_iff (depth := d) y1 (fun us hus => by
    obtain ⟨hs, q1, _⟩ := y3 us hus
    exact ⟨hs, q1, nonneg s2 b y2 hb us hus hs q1⟩)).1 ⟨b, h2⟩
  have hlines : UdSents (udFileLines (s ++ t)) (s1 ++ s2) := by
    rw [udFileLines_append hs]
    exact x1.append y1
  obtain ⟨ud, q1, q2⟩ := file_complete (d := d) hlines (fun us hus => (List.mem_append.1 hus).elim (ok1 us) (ok2 us)) [] {} closed_start
  rw [loadConllu_eq, q1]
  rw [List.nil_append] at q2
  rw [x2.join y2 ha hb q2]

end Verif
