import Verif.Model.ConlluIO
import Mathlib.Algebra.Field.Rat

/-!
# Model of /repo/babylondigger/evaluation/conll17_ud_eval.py

`load_conllu` is modelled on the lines of an in-memory file, `evaluate` on two loaded treebanks.
Words are objects compared by identity in the source; here a word is identified by its position in
`ud.words`, which only grows.  The command line (478-516) and the weights file
parser (446-462) are in EvalMain.lean.  Not modelled: the Python 2 branches.
-/

namespace Verif

/-! ### Representation -/

/-- conll17_ud_eval.py:122-127 `UDSpan`. -/
structure Span where
  start : Nat
  stop : Nat
  deriving DecidableEq, Repr

/-- Values of `UDWord.parent`, conll17_ud_eval.py:138, 173: `None`, the marker `"remapping"`, or the
word at the given position. -/
inductive Link where
  | none
  | remapping
  | word (i : Nat)
  deriving DecidableEq, Repr

/-- conll17_ud_eval.py:128-140 `UDWord`. -/
structure UDWord where
  span : Span
  columns : List Str
  multi : Bool
  parent : Link
  deriving DecidableEq

/-- `word.columns[c]`.  The loader builds words with ten columns only (`C25_words`), so the default
is never used for a column constant. -/
def UDWord.col (w : UDWord) (c : Nat) : Str := w.columns.getD c []

/-- conll17_ud_eval.py:129-140 `UDWord.__init__`; `split(':')[0]` on DEPREL. -/
def UDWord.new (span : Span) (columns : List Str) (multi : Bool) : UDWord :=
  { span, columns := columns.modify colDEPREL (fun d => (splitOn1 ':' d).headD []), multi,
    parent := .none }

/-- conll17_ud_eval.py:111-121 `UDRepresentation`. -/
structure UD where
  characters : Str := []
  tokens : List Span := []
  words : List UDWord := []
  sentences : List Span := []
  deriving DecidableEq

/-! ### load_conllu -/

/-- `ud.words[sentence_start + head - 1]` for `n = len(ud.words)`, conll17_ud_eval.py:170, with Python's
negative indices: the position of the word, if there is one. -/
def headTarget (sentStart n : Nat) (head : Int) : Option Nat :=
  let j := (sentStart : Int) + head - 1
  let p := if j < 0 then j + n else j
  if p < 0 ∨ p ≥ n then none else some p.toNat

/-- conll17_ud_eval.py:162-173 `process_word`.  `depth` is the number of nested calls the Python
stack still admits; beyond it Python raises `RecursionError`. -/
def processWord (sentStart : Nat) : Nat → List UDWord → Nat → Res (List UDWord)
  | 0, _, _ => .error .recursion
  | depth + 1, words, i =>
    match words[i]? with
    | none => .error .index
    | some w =>
      match w.parent with
      | .remapping => .error .udError
      | .word _ => .ok words
      | .none =>
        match pyInt (w.col colHEAD) with
        | .error e => .error e
        | .ok head =>
          if head > (words.length : Int) - sentStart then .error .udError
          else if head = 0 then .ok words
          else
            match headTarget sentStart words.length head with
            | none => .error .index
            | some p =>
              match processWord sentStart depth (words.set i { w with parent := .remapping }) p with
              | .error e => .error e
              | .ok words' => .ok (words'.set i { w with parent := .word p })

/-- The variables of `load_conllu`.  `pending` counts the lines that the loop of lines 214-219 has
still to read for the current multi-word token. -/
structure LState where
  ud : UD := {}
  index : Nat := 0
  sentStart : Option Nat := none
  pending : Nat := 0
  deriving DecidableEq

/-- `line.rstrip("\r\n")`. -/
def rstripEol (line : Str) : Str := (line.reverse.dropWhile isEol).reverse

/-- conll17_ud_eval.py:160-185: a blank line. -/
def loadBlank (depth : Nat) (st : LState) (sentStart : Nat) : Res LState :=
  match forM' (processWord sentStart depth) st.ud.words
      ((List.range (st.ud.words.length - sentStart)).map (sentStart + ·)) with
  | .error e => .error e
  | .ok words =>
    if ((words.drop sentStart).filter (fun w => decide (w.parent = .none))).length ≠ 1 then
      .error .udError
    else .ok { st with
      ud := { st.ud with
        words
        sentences := st.ud.sentences.modify (st.ud.sentences.length - 1)
          (fun s => { s with stop := st.index }) }
      sentStart := none }

/-- conll17_ud_eval.py:198: FORM without spaces. -/
def surfaceForm (columns : List Str) : Str := (columns.getD colFORM []).filter (· ≠ ' ')

/-- conll17_ud_eval.py:203-205: store a token. -/
def addSurface (st : LState) (form : Str) : LState :=
  { st with
    ud := { st.ud with
      characters := st.ud.characters ++ form
      tokens := st.ud.tokens ++ [⟨st.index, st.index + form.length⟩] }
    index := st.index + form.length }

/-- conll17_ud_eval.py:208-219: a multi-word token; its words are read by `loadPending`. -/
def loadRange (st : LState) (id : Str) : Res LState :=
  match splitOn1 '-' id with
  | [a, b] =>
    match pyInt a, pyInt b with
    | .ok x, .ok y => .ok { st with pending := (y + 1 - x).toNat }
    | _, _ => .error .udError
  | _ => .error .udError

/-- conll17_ud_eval.py:221-236: a basic word. -/
def loadWord (st : LState) (sentStart : Nat) (tok : Span) (columns : List Str) : Res LState :=
  match pyInt (columns.getD colID []) with
  | .error _ => .error .udError
  | .ok wordId =>
    if wordId ≠ (st.ud.words.length : Int) - sentStart + 1 then .error .udError
    else match pyInt (columns.getD colHEAD []) with
      | .error _ => .error .udError
      | .ok head =>
        if head < 0 then .error .udError
        else .ok { st with
          ud := { st.ud with words := st.ud.words ++ [UDWord.new tok columns false] } }

/-- conll17_ud_eval.py:192-236: the columns of a token or word. -/
def loadRow (st : LState) (sentStart : Nat) (columns : List Str) : Res LState :=
  if '.' ∈ columns.getD colID [] then .ok st
  else if (surfaceForm columns).isEmpty then .error .udError
  else if '-' ∈ columns.getD colID [] then
    loadRange (addSurface st (surfaceForm columns)) (columns.getD colID [])
  else
    loadWord (addSurface st (surfaceForm columns)) sentStart
      ⟨st.index, st.index + (surfaceForm columns).length⟩ (columns.set colFORM (surfaceForm columns))

/-- conll17_ud_eval.py:187-236: a line with a token or word. -/
def loadToken (st : LState) (sentStart : Nat) (line : Str) : Res LState :=
  if (splitOn1 '\t' line).length ≠ 10 then .error .udError
  else loadRow st sentStart (splitOn1 '\t' line)

/-- conll17_ud_eval.py:215-219: a line read by the inner loop, a word of a multi-word token. -/
def loadPending (st : LState) (line : Str) : Res LState :=
  if (splitOn1 '\t' line).length ≠ 10 then .error .udError
  else match st.ud.tokens.getLast? with
    | none => .error .index
    | some tok => .ok { st with
        ud := { st.ud with words := st.ud.words ++ [UDWord.new tok (splitOn1 '\t' line) true] }
        pending := st.pending - 1 }

/-- conll17_ud_eval.py:157-159: start a new sentence. -/
def startSentence (st : LState) : LState :=
  { st with
    ud := { st.ud with sentences := st.ud.sentences ++ [⟨st.index, 0⟩] }
    sentStart := some st.ud.words.length }

/-- conll17_ud_eval.py:160-236: a line inside of a sentence. -/
def loadLine (depth : Nat) (st : LState) (sentStart : Nat) (line : Str) : Res LState :=
  if line.isEmpty then loadBlank depth st sentStart else loadToken st sentStart line

/-- conll17_ud_eval.py:147-236: one line of the file, without its line end. -/
def loadStep (depth : Nat) (st : LState) (line : Str) : Res LState :=
  if st.pending > 0 then loadPending st line
  else
    match st.sentStart with
    | some start => loadLine depth st start line
    | none =>
      if line.head? = some '#' then .ok st
      else loadLine depth (startSentence st) st.ud.words.length line

/-- conll17_ud_eval.py:238-241 and the end of the file inside the inner loop, which reads an empty
line that has not ten columns. -/
def loadEnd (st : LState) : Res UD :=
  if st.pending > 0 then .error .udError
  else if st.sentStart.isSome then .error .udError
  else .ok st.ud

/-- conll17_ud_eval.py:109-241 `load_conllu(io.StringIO(text))`. -/
def loadConllu (depth : Nat) (text : Str) : Res UD :=
  match forM' (loadStep depth) {} ((fileLines text).map rstripEol) with
  | .error e => .error e
  | .ok st => loadEnd st

/-! ### Scores -/

/-- conll17_ud_eval.py:245-250 `Score`.  (Simplification: exact rationals instead of floats.) -/
structure Score where
  precision : Rat
  recall : Rat
  f1 : Rat
  aligned : Option Rat
  deriving DecidableEq

/-- conll17_ud_eval.py:246-250 `Score.__init__`. -/
def Score.new (gold system correct : Rat) (alignedTotal : Option Rat) : Score :=
  { precision := if system ≠ 0 then correct / system else 0
    recall := if gold ≠ 0 then correct / gold else 0
    f1 := if system + gold ≠ 0 then 2 * correct / (system + gold) else 0
    aligned := alignedTotal.map (fun a => if a ≠ 0 then correct / a else a) }

/-- conll17_ud_eval.py:282-291: the loop of `spans_score`; the indices are represented by the
remaining spans, `fuel` bounds the number of iterations. -/
def spansCorrect : Nat → List Span → List Span → Nat
  | _, [], _ => 0
  | _, _, [] => 0
  | 0, _, _ => 0
  | fuel + 1, g :: gs, s :: ss =>
    if s.start < g.start then spansCorrect fuel (g :: gs) ss
    else if g.start < s.start then spansCorrect fuel gs (s :: ss)
    else (if g.stop = s.stop then 1 else 0) + spansCorrect fuel gs ss

/-- conll17_ud_eval.py:281-293 `spans_score`. -/
def spansScore (gold system : List Span) : Score :=
  Score.new gold.length system.length (spansCorrect (gold.length + system.length) gold system) none

/-! ### Alignment -/

/-- `words[i]`. -/
def wordAt (words : List UDWord) (i : Nat) : Res UDWord :=
  match words[i]? with
  | some w => .ok w
  | none => .error .index

/-- conll17_ud_eval.py:317-322 `beyond_end`. -/
def beyondEnd (words : List UDWord) (i e : Nat) : Bool :=
  match words[i]? with
  | none => true
  | some w => if w.multi then decide (w.span.start ≥ e) else decide (w.span.stop > e)

/-- conll17_ud_eval.py:324-327 `extend_end`. -/
def extendEnd (w : UDWord) (e : Nat) : Nat :=
  if w.multi && decide (w.span.stop > e) then w.span.stop else e

/-- conll17_ud_eval.py:347-348: the condition of the `if` in the loop. -/
def takeGold (gold sys : List UDWord) (gi si : Nat) : Res Bool :=
  if gi < gold.length then
    if si ≥ sys.length then .ok true
    else
      match wordAt gold gi, wordAt sys si with
      | .ok g, .ok s => .ok (decide (g.span.start ≤ s.span.start))
      | _, _ => .error .index
  else .ok false

/-- conll17_ud_eval.py:345-353: the loop of `find_multiword_span`. -/
def spanLoop (gold sys : List UDWord) : Nat → Nat → Nat → Nat → Res (Nat × Nat)
  | 0, _, _, _ => .error .fuel
  | fuel + 1, gi, si, e =>
    if !beyondEnd gold gi e || !beyondEnd sys si e then
      match takeGold gold sys gi si with
      | .error er => .error er
      | .ok true =>
        match wordAt gold gi with
        | .error er => .error er
        | .ok g => spanLoop gold sys fuel (gi + 1) si (extendEnd g e)
      | .ok false =>
        match wordAt sys si with
        | .error er => .error er
        | .ok s => spanLoop gold sys fuel gi (si + 1) (extendEnd s e)
    else .ok (gi, si)

/-- conll17_ud_eval.py:329-354 `find_multiword_span`: `(gs, ss, gi, si)`. -/
def findMultiwordSpan (gold sys : List UDWord) (gi si : Nat) : Res (Nat × Nat × Nat × Nat) :=
  match wordAt gold gi, wordAt sys si with
  | .ok g, .ok s =>
    let init : Nat × Nat × Nat :=
      if g.multi then
        (g.span.stop, gi, if !s.multi && decide (s.span.start < g.span.start) then si + 1 else si)
      else
        (s.span.stop, if !g.multi && decide (g.span.start < s.span.start) then gi + 1 else gi, si)
    let (e, gs, ss) := init
    match spanLoop gold sys (gold.length + sys.length + 1) gs ss e with
    | .error er => .error er
    | .ok (gi', si') => .ok (gs, ss, gi', si')
  | _, _ => .error .index

/-- conll17_ud_eval.py:358-363: the row of `lcs` for one gold form.  The cells are computed from
right to left from the row below; a cell outside of the table counts as 0, which are the
conditional expressions of the source. -/
def lcsRow (f : Str) : List Str → List Nat → List Nat
  | [], _ => []
  | s :: ss, below =>
    let row := lcsRow f ss below.tail
    let c := if f = s then 1 + below.tail.headD 0 else 0
    max (max c (below.headD 0)) (row.headD 0) :: row

/-- conll17_ud_eval.py:356-364 `compute_lcs`, on the lower-cased forms of the two segments. -/
def computeLcs : List Str → List Str → List (List Nat)
  | [], _ => []
  | f :: fs, ss =>
    let rest := computeLcs fs ss
    lcsRow f ss (rest.headD []) :: rest

/-- `lcs[g][s]`. -/
def lcsCell (lcs : List (List Nat)) (g s : Nat) : Res Nat :=
  match lcs[g]? with
  | none => .error .index
  | some row =>
    match row[s]? with
    | none => .error .index
    | some v => .ok v

/-- `lcs[g+1][s] if g+1 < gi-gs else 0`, conll17_ud_eval.py:385. -/
def lcsBelow (lcs : List (List Nat)) (rows g s : Nat) : Res Nat :=
  if g + 1 < rows then lcsCell lcs (g + 1) s else .ok 0

/-- conll17_ud_eval.py:379-388: the loop that stores aligned words; positions relative to the
segments. -/
def lcsWalk (fs ss : List Str) (lcs : List (List Nat)) : Nat → Nat → Nat → Res (List (Nat × Nat))
  | 0, _, _ => .error .fuel
  | fuel + 1, g, s =>
    match fs[g]?, ss[s]? with
    | some f, some f' =>
      if f = f' then
        match lcsWalk fs ss lcs fuel (g + 1) (s + 1) with
        | .error e => .error e
        | .ok l => .ok ((g, s) :: l)
      else
        match lcsCell lcs g s, lcsBelow lcs fs.length g s with
        | .ok a, .ok b =>
          if a = b then lcsWalk fs ss lcs fuel (g + 1) s else lcsWalk fs ss lcs fuel g (s + 1)
        | _, _ => .error .index
    | _, _ => .ok []

/-- The lower-cased forms of `words[a:b]`. -/
def forms (lower : Str → Str) (words : List UDWord) (a b : Nat) : List Str :=
  (slice words a b).map (fun w => lower (w.col colFORM))

/-- conll17_ud_eval.py:375-388: the pairs aligned in one multiword span. -/
def alignSpan (lower : Str → Str) (gold sys : List UDWord) (gs ss gi si : Nat) :
    Res (List (Nat × Nat)) :=
  if si > ss ∧ gi > gs then
    let fg := forms lower gold gs gi
    let fs := forms lower sys ss si
    match lcsWalk fg fs (computeLcs fg fs) (fg.length + fs.length + 1) 0 0 with
    | .error e => .error e
    | .ok l => .ok (l.map (fun p => (gs + p.1, ss + p.2)))
  else .ok []

/-- conll17_ud_eval.py:369-398: the loop of `align_words`; returns the pairs of positions in the
order in which they are appended. -/
def alignLoop (lower : Str → Str) (gold sys : List UDWord) :
    Nat → Nat → Nat → Res (List (Nat × Nat))
  | 0, _, _ => .error .fuel
  | fuel + 1, gi, si =>
    match gold[gi]?, sys[si]? with
    | some g, some s =>
      if g.multi || s.multi then
        match findMultiwordSpan gold sys gi si with
        | .error e => .error e
        | .ok (gs, ss, gi', si') =>
          match alignSpan lower gold sys gs ss gi' si' with
          | .error e => .error e
          | .ok l =>
            match alignLoop lower gold sys fuel gi' si' with
            | .error e => .error e
            | .ok rest => .ok (l ++ rest)
      else if g.span.start = s.span.start ∧ g.span.stop = s.span.stop then
        match alignLoop lower gold sys fuel (gi + 1) (si + 1) with
        | .error e => .error e
        | .ok rest => .ok ((gi, si) :: rest)
      else if g.span.start ≤ s.span.start then alignLoop lower gold sys fuel (gi + 1) si
      else alignLoop lower gold sys fuel gi (si + 1)
    | _, _ => .ok []

/-- conll17_ud_eval.py:366-402 `align_words`: the aligned pairs of positions. -/
def alignWords (lower : Str → Str) (gold sys : List UDWord) : Res (List (Nat × Nat)) :=
  alignLoop lower gold sys (gold.length + sys.length + 1) 0 0

/-- The values compared as parents, conll17_ud_eval.py:272-274: `0`, `None`, the marker string (never
present after loading) or a gold word. -/
inductive Par where
  | zero
  | none
  | str
  | word (i : Nat)
  deriving DecidableEq

/-- conll17_ud_eval.py:272 `gold_parent`. -/
def goldParent : Link → Par
  | .none => .zero
  | .remapping => .str
  | .word i => .word i

/-- conll17_ud_eval.py:273-274 `system_parent_gold_aligned`, with `matched_words_map` (265). -/
def sysParent (pairs : List (Nat × Nat)) : Link → Par
  | .none => .zero
  | .remapping => .none
  | .word i =>
    match (Dict.ofList (pairs.map Prod.swap)).get? i with
    | some g => .word g
    | none => .none

/-- A gold word with its parent and the system word aligned to it with its parent, as seen by
`alignment_score`. -/
structure AWord where
  gold : UDWord
  goldPar : Par
  sys : UDWord
  sysPar : Par
  deriving DecidableEq

/-- conll17_ud_eval.py:263-274 `append_aligned_words` and `fill_parents`. -/
def fillParents (gold sys : List UDWord) (pairs : List (Nat × Nat)) : Res (List AWord) :=
  mapM' (fun p : Nat × Nat =>
    match wordAt gold p.1, wordAt sys p.2 with
    | .ok g, .ok s =>
      .ok { gold := g, goldPar := goldParent g.parent, sys := s, sysPar := sysParent pairs s.parent }
    | _, _ => .error .index) pairs

/-- `sum(weight(w) for w in words)`. -/
def totalWeight (weight : UDWord → Rat) (words : List UDWord) : Rat := (words.map weight).sum

/-- conll17_ud_eval.py:295-315 `alignment_score` with a key function. -/
def keyScore {κ : Type} [DecidableEq κ] (gold sys : List UDWord) (matched : List AWord)
    (key : UDWord → Par → κ) (weight : UDWord → Rat) : Score :=
  Score.new (totalWeight weight gold) (totalWeight weight sys)
    (totalWeight weight ((matched.filter
      (fun a => decide (key a.gold a.goldPar = key a.sys a.sysPar))).map AWord.gold))
    (some (totalWeight weight (matched.map AWord.gold)))

/-- conll17_ud_eval.py:307-309: `key_fn is None`. -/
def wordsScore (gold sys : List UDWord) (matched : List AWord) (weight : UDWord → Rat) : Score :=
  Score.new (totalWeight weight gold) (totalWeight weight sys)
    (totalWeight weight (matched.map AWord.gold)) none

/-- conll17_ud_eval.py:97-102 `CLAS_weights`. -/
def clasWeights : Dict Str Rat :=
  Dict.ofList ([("aux", 0), ("case", 0), ("cc", 0), ("clf", 0), ("cop", 0), ("det", 0), ("mark", 0),
    ("punct", 0)].map (fun p => (p.1.toList, p.2)))

/-- conll17_ud_eval.py:422-423 `weighted_las`. -/
def weightedLas (weights : Dict Str Rat) (w : UDWord) : Rat := (weights.get? (w.col colDEPREL)).getD 1

/-- conll17_ud_eval.py:426-442: the result of `evaluate`. -/
structure Metrics where
  tokens : Score
  sentences : Score
  words : Score
  upos : Score
  xpos : Score
  feats : Score
  allTags : Score
  lemmas : Score
  uas : Score
  las : Score
  clas : Score
  weighted : Option Score
  deriving DecidableEq

/-- conll17_ud_eval.py:295 `weight_fn=lambda w: 1`. -/
def unitWeight (_ : UDWord) : Rat := 1

/-- conll17_ud_eval.py:430-434: `lambda w, parent: w.columns[c]`. -/
def colKey (c : Nat) (w : UDWord) (_ : Par) : Str := w.col c

/-- conll17_ud_eval.py:433: the key of AllTags. -/
def tagsKey (w : UDWord) (_ : Par) : Str × Str × Str := (w.col colUPOS, w.col colXPOS, w.col colFEATS)

/-- conll17_ud_eval.py:435: the key of UAS. -/
def uasKey (_ : UDWord) (p : Par) : Par := p

/-- conll17_ud_eval.py:436-437, 442: the key of LAS, CLAS and WeightedLAS. -/
def lasKey (w : UDWord) (p : Par) : Par × Str := (p, w.col colDEPREL)

/-- conll17_ud_eval.py:426-442: the metrics computed from the aligned words. -/
def metricsOf (gold sys : UD) (matched : List AWord) (weights : Option (Dict Str Rat)) : Metrics :=
  { tokens := spansScore gold.tokens sys.tokens
    sentences := spansScore gold.sentences sys.sentences
    words := wordsScore gold.words sys.words matched unitWeight
    upos := keyScore gold.words sys.words matched (colKey colUPOS) unitWeight
    xpos := keyScore gold.words sys.words matched (colKey colXPOS) unitWeight
    feats := keyScore gold.words sys.words matched (colKey colFEATS) unitWeight
    allTags := keyScore gold.words sys.words matched tagsKey unitWeight
    lemmas := keyScore gold.words sys.words matched (colKey colLEMMA) unitWeight
    uas := keyScore gold.words sys.words matched uasKey unitWeight
    las := keyScore gold.words sys.words matched lasKey unitWeight
    clas := keyScore gold.words sys.words matched lasKey (weightedLas clasWeights)
    weighted := weights.map (fun ws => keyScore gold.words sys.words matched lasKey (weightedLas ws)) }

/-- conll17_ud_eval.py:244-444 `evaluate(gold_ud, system_ud, deprel_weights)`; `lower` is
`str.lower`. -/
def evaluate (lower : Str → Str) (gold sys : UD) (weights : Option (Dict Str Rat)) : Res Metrics :=
  if gold.characters ≠ sys.characters then .error .udError
  else
    match alignWords lower gold.words sys.words with
    | .error e => .error e
    | .ok pairs =>
      match fillParents gold.words sys.words pairs with
      | .error e => .error e
      | .ok matched => .ok (metricsOf gold sys matched weights)

end Verif
