import Verif.Spec.Pieces
import Verif.Proofs.UdJoin

/-! # Lemmas for C149: reading and writing piece by piece -/

namespace Verif

/-- The loop of the reader without what it does at the end of the file. -/
def readSteps (limit : Nat) (cols : Cols) : RState → List Str → List Document × Res RState
  | st, [] => ([], .ok st)
  | st, line :: lines =>
    if line.head? = some '#' then readSteps limit cols st lines
    else if line.isEmpty then
      match endOfSentence st with
      | .error e => ([], .error e)
      | .ok st' =>
        if st'.sents.length ≥ limit then
          match st'.document with
          | .error e => ([], .error e)
          | .ok d => (d :: (readSteps limit cols {} lines).1, (readSteps limit cols {} lines).2)
        else readSteps limit cols st' lines
    else
      match addToken cols st line with
      | .error e => ([], .error e)
      | .ok st' => readSteps limit cols st' lines

/-- What is yielded after some lines. -/
def afterSteps (limit : Nat) (cols : Cols) (r : List Document × Res RState) (rest : List Str) : List Document × Option Err :=
  match r.2 with
  | .error e => (r.1, some e)
  | .ok st => (r.1 ++ (readLoop limit cols st rest).1, (readLoop limit cols st rest).2)

theorem readLoop_append (limit : Nat) (cols : Cols) (st : RState) (a b : List Str) :
    readLoop limit cols st (a ++ b) = afterSteps limit cols (readSteps limit cols st a) b := by
  induction a generalizing st with
  | nil => simp [readSteps, afterSteps]
  | cons l a ih =>
    simp only [List.cons_append, readLoop, readSteps]
    split
    · exact ih st
    · split
      · cases endOfSentence st with
        | error e => rfl
        | ok st' =>
          simp only
          split
          · cases st'.document with
            | error e => rfl
            | ok d =>
              simp only [ih, afterSteps]
              cases (readSteps limit cols {} a).2 <;> rfl
          · exact ih st'
      · cases addToken cols st l with
        | error e => rfl
        | ok st' => exact ih st'

theorem readSteps_append (limit : Nat) (cols : Cols) (st : RState) (a b : List Str) :
    readSteps limit cols st (a ++ b) = match (readSteps limit cols st a).2 with
      | .error e => ((readSteps limit cols st a).1, .error e)
      | .ok st' => ((readSteps limit cols st a).1 ++ (readSteps limit cols st' b).1, (readSteps limit cols st' b).2) := by
  induction a generalizing st with
  | nil => simp [readSteps]
  | cons l a ih =>
    simp only [List.cons_append, readSteps]
    split
    · exact ih st
    · split
      · cases endOfSentence st with
        | error e => rfl
        | ok st' =>
          simp only
          split
          · cases st'.document with
            | error e => rfl
            | ok d =>
              simp only [ih]
              cases (readSteps limit cols {} a).2 <;> rfl
          · exact ih st'
      · cases addToken cols st l with
        | error e => rfl
        | ok st' => exact ih st'

/-- A state between lines: the document is not full, and sentences have tokens. -/
def MidFile (limit : Nat) (st : RState) : Prop := st.sents.length < limit ∧ (st.tokens = [] → st.sents = [])

theorem addToken_grows {cols : Cols} {st st' : RState} {line : Str} (h : addToken cols st line = .ok st') :
    st'.sents = st.sents ∧ (st'.tokens = [] → st.tokens = []) := by
  unfold addToken at h
  split at h
  · cases h
  · split at h
    · unfold processRegular at h
      split at h
      · cases h
      · split at h
        · cases h; exact ⟨rfl, id⟩
        · simp only at h
          split at h
          · split at h
            · split at h
              · cases h; exact ⟨rfl, id⟩
              · cases h
            · cases h
          · split at h
            · cases h
            · cases h; exact ⟨rfl, fun h' => by simp at h'⟩
    · unfold processMulti at h
      split at h
      · cases h
      · cases h; exact ⟨rfl, fun h' => by simp at h'⟩

theorem endOfSentence_grows {st st' : RState} (h : endOfSentence st = .ok st') :
    st'.tokens = st.tokens ∧ st.tokens ≠ [] := by
  unfold endOfSentence at h
  split at h
  · cases h
  · split at h
    · cases h
    · rename_i s hs
      cases h
      refine ⟨rfl, ?_⟩
      intro h0
      unfold Sentence.new at hs
      rw [h0] at hs
      split at hs
      · split at hs
        · rename_i h1 h2
          simp only [List.length_nil] at h2
          omega
        · cases hs
      · cases hs

theorem readSteps_between {limit : Nat} (hpos : 0 < limit) {cols : Cols} {st st' : RState} {a : List Str}
    (hb : MidFile limit st) (h : (readSteps limit cols st a).2 = .ok st') : MidFile limit st' := by
  induction a generalizing st with
  | nil => cases h; exact hb
  | cons l a ih =>
    simp only [readSteps] at h
    split at h
    · exact ih hb h
    · split at h
      · split at h
        · cases h
        · rename_i st1 hs
          have := endOfSentence_grows hs
          split at h
          · split at h
            · cases h
            · exact ih (st := {}) ⟨hpos, fun _ => rfl⟩ h
          · rename_i hlt
            exact ih ⟨by omega, fun h0 => absurd (this.1 ▸ h0) this.2⟩ h
      · split at h
        · cases h
        · rename_i st1 hs
          have := addToken_grows hs
          exact ih ⟨this.1 ▸ hb.1, fun h0 => by rw [this.1]; exact hb.2 (this.2 h0)⟩ h

/-- The document that is yielded at the end of the file is not full. -/
theorem document_short {st : RState} {d : Document} (h : st.document = .ok d) : d.sentences.length ≤ st.sents.length := by
  unfold RState.document at h
  split at h
  · cases h
  · have hl : (sortedSentences st.tokens (some st.sents)).length = st.sents.length := by
      unfold sortedSentences
      simp only
      split
      · rfl
      · exact pySorted_length _ _
    unfold Document.new at h
    simp only at h
    split at h
    · cases h
    · split at h
      · cases h; simp
      · split at h
        · repeat' split at h
          all_goals first
            | cases h; done
            | (cases h; exact hl.le)
        · cases h

/-- The end of the file. -/
theorem readLoop_end {limit : Nat} {cols : Cols} {st : RState} (hb : MidFile limit st) {ds : List Document} {e : Option Err}
    (h : readLoop limit cols st [] = (ds, e)) :
    (∀ d ∈ ds, d.sentences.length < limit) ∧ ds.length ≤ 1 ∧ (ds = [] → e = none → st = {}) := by
  simp only [readLoop] at h
  unfold RState.isEmpty at h
  obtain ⟨text, tokens, sents, multi⟩ := st
  cases multi with
  | some m => cases h; exact ⟨by simp, by simp, fun _ h' => by cases h'⟩
  | none =>
    simp only at h
    cases hemp : text.isEmpty && tokens.isEmpty with
    | true =>
      rw [hemp] at h
      cases h
      refine ⟨by simp, by simp, fun _ _ => ?_⟩
      simp only [Bool.and_eq_true, List.isEmpty_iff] at hemp
      obtain ⟨rfl, rfl⟩ := hemp
      have : sents = [] := hb.2 rfl
      rw [this]
    | false =>
      rw [hemp] at h
      simp only at h
      split at h
      · cases h; exact ⟨by simp, by simp, fun _ h' => by cases h'⟩
      · rename_i d hd
        cases h
        refine ⟨?_, by simp, fun h' => by cases h'⟩
        intro d' hd'
        rw [List.mem_singleton] at hd'
        subst hd'
        exact lt_of_le_of_lt (document_short hd) hb.1

/-- The lines of two texts. -/
theorem lines_append {a : Str} (b : Str) (h : WholeLines a) :
    (fileLines (a ++ b)).map (stripBy isEol) =
      (fileLines a).map (stripBy isEol) ++ (fileLines b).map (stripBy isEol) := by
  rcases h with rfl | h
  · simp [fileLines]
  · obtain ⟨l, rfl⟩ := List.getLast?_eq_some_iff.1 h
    rw [List.append_assoc, List.singleton_append, fileLines_nl, List.map_append]

/-! ### Writing -/

/-- The state with something written before. -/
def WState.before (o : Str) (st : WState) : WState := { st with out := o ++ st.out }

theorem forM'_before {σ α : Type} {f : σ → α → Res σ} {g : σ → σ} (h : ∀ s a, f (g s) a = (f s a).map g) (s : σ) (l : List α) :
    forM' f (g s) l = (forM' f s l).map g := by
  induction l generalizing s with
  | nil => rfl
  | cons a l ih =>
    simp only [forM', h]
    cases f s a with
    | error e => rfl
    | ok s' => exact ih s'

theorem writeRegular_before (cols : Cols) (text : Str) (b : Bool) (o : Str) (st : WState) (t : Token) :
    writeRegular cols text b (st.before o) t = (writeRegular cols text b st t).map (WState.before o) := by
  unfold writeRegular
  show (match toConll cols text Token.headSent st.index t b true with
    | .error e => Except.error e
    | .ok fields => _) = _
  cases toConll cols text Token.headSent st.index t b true with
  | error e => rfl
  | ok fields => simp [Except.map, WState.before]

theorem writeMultiword_before (cols : Cols) (text : Str) (o : Str) (st : WState) (n : Nat) (f : Token) (ts : List Token) :
    writeMultiword cols text (st.before o) n f ts = (writeMultiword cols text st n f ts).map (WState.before o) := by
  unfold writeMultiword
  rw [← forM'_before (writeRegular_before cols text false o)]
  simp [WState.before]

theorem writeTokenRegular_before (cols : Cols) (text : Str) (o : Str) (st : WState) (t : Token) :
    writeTokenRegular cols text (st.before o) t = (writeTokenRegular cols text st t).map (WState.before o) := by
  unfold writeTokenRegular
  split
  · rfl
  · exact writeRegular_before cols text true o { st with pending := none } t

theorem writeToken_before (cols : Cols) (text : Str) (o : Str) (st : WState) (t : Token) :
    writeToken cols text (st.before o) t = (writeToken cols text st t).map (WState.before o) := by
  have hp : (st.before o).pending = st.pending := rfl
  unfold writeToken
  rw [hp]
  cases st.pending with
  | none => exact writeTokenRegular_before cols text o st t
  | some p =>
    obtain ⟨n, f, ts⟩ := p
    simp only
    split
    · rfl
    · rw [writeMultiword_before]
      cases writeMultiword cols text st n f ts with
      | error e => rfl
      | ok st' => exact writeTokenRegular_before cols text o st' t

theorem writeEnd_before (cols : Cols) (text : Str) (o : Str) (st : WState) :
    writeEnd cols text (st.before o) = (writeEnd cols text st).map (WState.before o) := by
  have hp : (st.before o).pending = st.pending := rfl
  unfold writeEnd
  rw [hp]
  cases st.pending with
  | none => simp [Except.map, WState.before]
  | some p =>
    obtain ⟨n, f, ts⟩ := p
    simp only
    rw [writeMultiword_before]
    cases writeMultiword cols text st n f ts with
    | error e => rfl
    | ok st' => simp [Except.map, WState.before]

theorem writeNth_before (cols : Cols) (d : Document) (o : Str) (st : WState) (i : Nat) :
    writeNth cols d (st.before o) i = (writeNth cols d st i).map (WState.before o) := by
  unfold writeNth
  cases d.getSentence i with
  | error e => rfl
  | ok s =>
    simp only
    unfold writeSentence
    rw [forM'_before (writeToken_before cols d.text o)]
    cases forM' (writeToken cols d.text) st s.tokens with
    | error e => rfl
    | ok st' => exact writeEnd_before cols d.text o st'

theorem writeDocument_before (cols : Cols) (o p : Str) (d : Document) :
    writeDocument cols (o ++ p) d = (writeDocument cols p d).map (o ++ ·) := by
  unfold writeDocument
  have := forM'_before (writeNth_before cols d o) { out := p } (List.range d.sentences.length)
  unfold WState.before at this
  simp only at this
  rw [this]
  cases forM' (writeNth cols d) { out := p } (List.range d.sentences.length) <;> rfl

end Verif
