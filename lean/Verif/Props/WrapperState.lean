import Verif.Spec.WrapperState
import Verif.Proofs.Resave
import Verif.Props.Wrappers

/-!
# The objects of the wrappers between calls: C114, C115, C116, C117, C118
-/

namespace Verif

/-! ### C114 -/

theorem sessionOpen_append (ops : List TdOp) (op : TdOp) : sessionOpen (ops ++ [op]) =
    match op with
    | .enter _ => true
    | .exit => false
    | .process _ => sessionOpen ops := by
  cases op <;> simp [sessionOpen]

theorem TdProc.after_append (net : TdNet) (ef : List Str) (p : TdProc) (ops : List TdOp) (op : TdOp) :
    p.after net ef (ops ++ [op]) = ((p.after net ef ops).step net ef op).1 := by
  simp [TdProc.after]

theorem TdProc.after_session (net : TdNet) (ef : List Str) (pre : List TdOp) :
    (TdProc.after net ef {} pre).session = sessionOpen pre := by
  induction pre using List.reverseRecOn with
  | nil => rfl
  | append_singleton pre op ih =>
    rw [TdProc.after_append, sessionOpen_append]
    cases op with
    | enter r => cases r <;> rfl
    | exit =>
      simp only [TdProc.step]
      split
      · rfl
      · simp_all
    | process docs =>
      simp only [TdProc.step]
      split
      · split
        · simpa using ih
        · split <;> simpa using ih
      · simpa using ih

/-- The predictions are gone unless a call failed. -/
theorem TdProc.after_preds (net : TdNet) (ef : List Str) (pre : List TdOp)
    (hok : ∀ a docs b, pre = a ++ .process docs :: b → sessionOpen a = true →
      ∃ outs, (TdProc.after net ef {} a).result net ef (.process docs) = .ok outs) :
    (TdProc.after net ef {} pre).preds = noPreds := by
  induction pre using List.reverseRecOn with
  | nil => rfl
  | append_singleton pre op ih =>
    have ih := ih (fun a docs b h => hok a docs (b ++ [op]) (by rw [h]; simp))
    rw [TdProc.after_append]
    cases op with
    | enter r => cases r <;> exact ih
    | exit =>
      simp only [TdProc.step]
      split <;> exact ih
    | process docs =>
      have h1 := hok pre docs [] rfl
      have h2 := TdProc.after_session net ef pre
      simp only [TdProc.result, TdProc.step] at h1 ⊢
      rw [h2] at h1 ⊢
      cases hs : sessionOpen pre with
      | false => simpa using ih
      | true =>
        simp only [hs, if_true] at h1 ⊢
        obtain ⟨outs, h1⟩ := h1 trivial
        split at h1
        · cases h1
        · split at h1
          · cases h1
          · rfl

/-- C114, what holds: after any history in which no call of `process` within a session failed, a call gives
exactly what it gives on a new processor that was just entered, and `AttributeError` if there is no session. -/
theorem C114_partial (net : TdNet) (ef : List Str) (pre : List TdOp) (docs : List Document)
    (hok : ∀ a ds b, pre = a ++ .process ds :: b → sessionOpen a = true →
      ∃ outs, (TdProc.after net ef {} a).result net ef (.process ds) = .ok outs) :
    (TdProc.after net ef {} pre).result net ef (.process docs) =
      if sessionOpen pre then (TdProc.after net ef {} [.enter none]).result net ef (.process docs)
      else .error .attribute := by
  have h1 := TdProc.after_session net ef pre
  have h2 := TdProc.after_preds net ef pre hok
  simp only [TdProc.result, TdProc.step, h1, h2]
  cases sessionOpen pre with
  | false => rfl
  | true => rfl

/-- C114: what the first call on a new processor gives is what the predictions of all its batches say, in the
sense of C63. -/
theorem C114_first_partial (net : TdNet) (ef : List Str) (docs : List Document) (batches : List TdPreds)
    (h : net docs = (batches, none)) :
    (TdProc.after net ef {} [.enter none]).result net ef (.process docs) =
      tdProcess true (batches.foldl cachePreds noPreds) ef docs := by
  simp only [TdProc.after, List.foldl_cons, List.foldl_nil, TdProc.result, TdProc.step, h, tdProcess, if_true]
  split <;> simp_all

/-- C114: an exception of the network is passed on, in whatever state the processor is. -/
theorem C114_failure_partial (net : TdNet) (ef : List Str) (pre : List TdOp) (docs : List Document) (e : Err)
    (batches : List TdPreds) (h : net docs = (batches, some e)) (ho : sessionOpen pre = true) :
    (TdProc.after net ef {} pre).result net ef (.process docs) = .error e := by
  have h1 := TdProc.after_session net ef pre
  simp only [TdProc.result, TdProc.step, h1, h, ho, if_true]

/-- The batch of a network that predicts the lemmas `ls` for the words of sentence `n`. -/
def Demo.lemmaBatch (n : Nat) (ls : List Str) : TdPreds :=
  { indices := [n]
    fields := Dict.ofList [("id".toList, [['0'] :: ls.map (fun _ => ['1'])]), ("lemma".toList, [[] :: ls])] }

/-- A network that answers one document, and that fails after the first sentence if there are more. -/
def Demo.failingNet : TdNet := fun docs =>
  if docs.length = 1 then
    ([Demo.lemmaBatch 0 [['a'], ['b']], Demo.lemmaBatch 1 [['c'], ['d']]], none)
  else ([Demo.lemmaBatch 0 [['x'], ['y']]], some .value)

/-- The lemmas of all tokens of what was returned. -/
def Demo.lemmas (r : Res (List Document)) : Option (List (Option Str)) :=
  match r with
  | .ok ds => some (ds.flatMap (fun d => d.tokens.map (fun t => t.lemma')))
  | .error _ => none

/-- C114 (refuted): after a call failed, even if the failure is over and the processor was exited and entered
again, the tokens of the next call get predictions of the failed call (`x`, `y`) and of other sentences (`a`, `b` for
the second sentence). -/
theorem C114_refuted :
    ∃ net : TdNet, ∃ docs bad : List Document, (∀ d ∈ docs, Built d) ∧ (∀ d ∈ bad, Built d) ∧
      Demo.lemmas ((TdProc.after net [] {} [.enter none]).result net [] (.process docs)) =
        some [some ['a'], some ['b'], some ['c'], some ['d']] ∧
      Demo.lemmas ((TdProc.after net [] {} [.enter none, .process bad, .exit, .enter none]).result net []
        (.process docs)) = some [some ['x'], some ['y'], some ['a'], some ['b']] := by
  refine ⟨Demo.failingNet, [Demo.doc], [Demo.doc, Demo.doc], ?_, ?_, ?_, ?_⟩
  · simpa using Demo.docBuilt
  · simpa using Demo.docBuilt
  · decide +kernel
  · decide +kernel

/-- A history without failed calls, with a call outside of a session and two sessions. -/
example : let pre : List TdOp := [.process [], .enter none, .process [Demo.doc], .exit, .enter none]
    sessionOpen pre = true ∧ ∀ a ds b, pre = a ++ .process ds :: b → sessionOpen a = true →
      ∃ outs, (TdProc.after Demo.failingNet [] {} a).result Demo.failingNet [] (.process ds) = .ok outs := by
  refine ⟨rfl, ?_⟩
  intro a ds b h hs
  rcases a with _ | ⟨x, _ | ⟨y, _ | ⟨z, _ | ⟨u, _ | ⟨v, a⟩⟩⟩⟩⟩ <;> simp at h
  · simp [sessionOpen] at hs
  · obtain ⟨rfl, rfl, rfl, rfl⟩ := h
    have h1 : (Demo.lemmas ((TdProc.after Demo.failingNet [] {} [.process [], .enter none]).result
      Demo.failingNet [] (.process [Demo.doc]))).isSome = true := by decide +kernel
    generalize (TdProc.after Demo.failingNet [] {} [.process [], .enter none]).result
      Demo.failingNet [] (.process [Demo.doc]) = r at h1 ⊢
    cases r with
    | error e => cases h1
    | ok o => exact ⟨o, rfl⟩

/-! ### C115 -/

theorem TdProc.step_process_session (net : TdNet) (ef : List Str) (p : TdProc) (docs : List Document) :
    (p.step net ef (.process docs)).1.session = p.session ∧ (p.step net ef (.process docs)).2.1 = [] := by
  simp only [TdProc.step]
  split
  · split
    · simp
    · split <;> simp
  · simp

theorem withBlock_events (net : TdNet) (ef : List Str) (calls : List (List Document)) (p : TdProc)
    (h : p.session = true) :
    TdProc.events net ef p (withBlock net ef p calls) = [.closed] ∧
    (p.after net ef (withBlock net ef p calls)).session = false := by
  induction calls generalizing p with
  | nil => simp [withBlock, TdProc.events, TdProc.after, TdProc.step, h]
  | cons docs rest ih =>
    obtain ⟨h1, h2⟩ := TdProc.step_process_session net ef p docs
    rw [h] at h1
    unfold withBlock
    split
    · simp only [TdProc.events, h2, List.nil_append, TdProc.after, List.foldl_cons, List.foldl_nil]
      simp [TdProc.step.eq_3, h1]
    · obtain ⟨h3, h4⟩ := ih _ h1
      simp only [TdProc.events, h2, List.nil_append, TdProc.after, List.foldl_cons]
      exact ⟨h3, h4⟩

/-- C115, what holds: a `with` statement whose entering succeeds opens one session and closes it, whatever calls
are made in its block, whether one of them fails, and whatever was done with the processor before; afterwards the
processor has no session. -/
theorem C115_partial (net : TdNet) (ef : List Str) (pre : List TdOp) (calls : List (List Document)) :
    let p := TdProc.after net ef {} pre
    let q := (p.step net ef (.enter none)).1
    TdProc.events net ef p (.enter none :: withBlock net ef q calls) = [.opened, .closed] ∧
    (p.after net ef (.enter none :: withBlock net ef q calls)).session = false := by
  intro p q
  obtain ⟨h1, h2⟩ := withBlock_events net ef calls q rfl
  exact ⟨by simp only [TdProc.events]; rw [h1]; rfl, by simpa [TdProc.after] using h2⟩

/-- C115 (refuted): if restoring the variables fails, the session that was opened is neither closed by the `with`
statement (whose body and exit are not executed) nor removed: the processor can still be called. -/
theorem C115_refuted (net : TdNet) (ef : List Str) (e : Err) (docs : List Document) (outs : List Document)
    (h : (TdProc.after net ef {} [.enter none]).result net ef (.process docs) = .ok outs) :
    TdProc.result net ef {} (.enter (some e)) = .error e ∧
    TdProc.events net ef {} [.enter (some e)] = [.opened] ∧
    (TdProc.after net ef {} [.enter (some e)]).result net ef (.process docs) = .ok outs :=
  ⟨rfl, rfl, h⟩

/-- Two calls, the second one fails: the session is closed all the same, and the third call is not made. -/
example : (withBlock Demo.failingNet [] { session := true } [[Demo.doc], [Demo.doc, Demo.doc], [Demo.doc]]).length = 3 ∧
    TdProc.events Demo.failingNet [] {}
      (.enter none :: withBlock Demo.failingNet [] { session := true } [[Demo.doc], [Demo.doc, Demo.doc], [Demo.doc]]) =
    [.opened, .closed] := by decide +kernel

/-! ### C116 -/

theorem lookup_eq_find (l : List (Str × TfOut)) (k : Str) :
    l.lookup k = (l.find? (fun e => e.1 == k)).map Prod.snd := by
  induction l with
  | nil => rfl
  | cons a l ih =>
    by_cases h : a.1 = k
    · subst h; simp [List.lookup]
    · have h1 : (k == a.1) = false := by simpa using Ne.symm h
      have h2 : (a.1 == k) = false := by simpa using h
      rw [List.find?_cons]
      simp only [List.lookup, h1, h2]
      exact ih

theorem TfOut.follow_ok {o r : TfOut} {path : List Str} : o.follow path = .ok r ↔ Reaches o path r := by
  induction path generalizing o with
  | nil =>
    constructor
    · intro h
      injection h with h
      subst h
      exact .here o
    · intro h
      cases h
      rfl
  | cons key path ih =>
    cases o with
    | tensor n =>
      constructor
      · intro h; cases h
      · intro h; cases h
    | dict entries =>
      have h1 := lookup_eq_find entries key
      constructor
      · intro h
        simp only [TfOut.follow, TfOut.child] at h
        split at h
        · cases h
        · rename_i o' h2
          split at h2
          · rename_i e he
            injection h2 with h2
            subst h2
            rw [he] at h1
            exact .step h1 (ih.mp h)
          · cases h2
      · intro h
        cases h with
        | step hl hr =>
          rw [hl] at h1
          cases he : entries.find? (fun e => e.1 == key) with
          | none => rw [he] at h1; cases h1
          | some e =>
            rw [he] at h1
            injection h1 with h1
            simp only [TfOut.follow, TfOut.child, he]
            rw [← h1]
            exact ih.mpr hr

theorem TfOut.follow_error {o : TfOut} {path : List Str} {e : Err} (h : o.follow path = .error e) : e = .value := by
  induction path generalizing o with
  | nil => cases h
  | cons key path ih =>
    simp only [TfOut.follow] at h
    split at h
    · rename_i h2
      injection h with h
      subst h
      unfold TfOut.child at h2
      split at h2
      · injection h2 with h2; exact h2.symm
      · split at h2
        · cases h2
        · injection h2 with h2; exact h2.symm
    · exact ih h

theorem forall₂_mem_left {α β : Type} {R : α → β → Prop} {l : List α} {l' : List β}
    (h : List.Forall₂ R l l') {x : α} (hx : x ∈ l) : ∃ y ∈ l', R x y := by
  induction h with
  | nil => cases hx
  | @cons a b l l' h1 _ ih =>
    rcases List.mem_cons.mp hx with rfl | hx
    · exact ⟨b, by simp, h1⟩
    · obtain ⟨y, hy, hr⟩ := ih hx
      exact ⟨y, by simp [hy], hr⟩

theorem mergedFields_get {flags : List (Bool × Str × List Str)} {ef : Option (Dict Str (List Str))}
    (hn : (flags.map (fun f => f.2.1)).Nodup) (name : Str) (path : List Str) :
    (mergedFields flags ef).get? name = some path ↔ Requested flags ef name path := by
  have hn2 : (((flags.filter (fun f => f.1)).map (fun f => f.2)).map Prod.fst).Nodup := by
    rw [List.map_map]
    exact hn.sublist (List.filter_sublist.map _)
  have hg : ∀ path, (Dict.ofList ((flags.filter (fun f => f.1)).map (fun f => f.2))).get? name = some path ↔
      (true, name, path) ∈ flags := by
    intro path
    rw [Dict.get?_mem, Dict.ofList_entries _ hn2]
    simp [List.mem_map, List.mem_filter]
  unfold mergedFields Requested
  rw [Dict.get?_update]
  cases h : (ef.getD Dict.empty).get? name with
  | none => simp [Option.orElse, hg]
  | some q => simp [Option.orElse]

/-- C116: construction succeeds exactly if the configuration names the expected network class and every field
that is asked for, by a flag or by the caller, names a path through the outputs of the network; the only exception
is `ValueError`; and the extra fields of the object are exactly the fields asked for, each with the output its path
leads to (the caller's path if both ask for the field). -/
theorem C116_construct (cls expected : Str) (outputs : TfOut) (flags : List (Bool × Str × List Str))
    (hn : (flags.map (fun f => f.2.1)).Nodup) (ef : Option (Dict Str (List Str))) :
    ((∃ fields, tdConstruct cls expected outputs flags ef = .ok fields) ↔
      cls = expected ∧ ∀ name path, Requested flags ef name path → ∃ o, Reaches outputs path o) ∧
    (∀ fields, tdConstruct cls expected outputs flags ef = .ok fields → ∀ name o,
      fields.get? name = some o ↔ ∃ path, Requested flags ef name path ∧ Reaches outputs path o) ∧
    (∀ e, tdConstruct cls expected outputs flags ef = .error e → e = .value) := by
  have hreq : ∀ name path, Requested flags ef name path ↔ (name, path) ∈ (mergedFields flags ef).entries := by
    intro name path
    rw [← mergedFields_get hn, Dict.get?_mem]
  have hnd := (mergedFields flags ef).nodup
  unfold tdConstruct resolveFields
  simp only [hreq]
  generalize (mergedFields flags ef).entries = l at hnd ⊢
  cases hm : mapM' (fun e : Str × List Str =>
        match outputs.follow e.2 with
        | .error e => .error e
        | .ok o => .ok (e.1, o)) l with
  | error e =>
    have hbad : ∃ x ∈ l, ∃ e', outputs.follow x.2 = .error e' ∧ e' = e := by
      obtain ⟨x, hx, he⟩ := mapM'_error hm
      refine ⟨x, hx, ?_⟩
      split at he
      · rename_i e' h2
        injection he with he
        exact ⟨e', h2, he⟩
      · cases he
    obtain ⟨x, hx, e', he, rfl⟩ := hbad
    refine ⟨?_, by simp, ?_⟩
    · constructor
      · rintro ⟨_, h⟩; cases h
      · rintro ⟨_, h⟩
        obtain ⟨o, ho⟩ := h x.1 x.2 hx
        rw [TfOut.follow_ok.mpr ho] at he
        cases he
    · intro e h
      injection h with h
      subst h
      exact TfOut.follow_error he
  | ok r =>
    have hf : List.Forall₂ (fun (x : Str × List Str) (y : Str × TfOut) => y.1 = x.1 ∧ outputs.follow x.2 = .ok y.2) l r := by
      refine (mapM'_ok_iff.mp hm).imp (fun x y h => ?_)
      split at h
      · cases h
      · rename_i o h2
        injection h with h
        subst h
        exact ⟨rfl, h2⟩
    have hk : r.map Prod.fst = l.map Prod.fst := by
      clear hm hnd
      induction hf with
      | nil => rfl
      | cons h _ ih => simp [h.1, ih]
    have hfields : ∀ name o, (Dict.ofList r).get? name = some o ↔ ∃ path, (name, path) ∈ l ∧ Reaches outputs path o := by
      intro name o
      rw [Dict.get?_mem, Dict.ofList_entries _ (by rw [hk]; exact hnd)]
      constructor
      · intro h
        obtain ⟨x, hx, h1, h2⟩ := forall₂_mem_right hf h
        refine ⟨x.2, ?_, TfOut.follow_ok.mp h2⟩
        have : name = x.1 := h1
        rw [this]
        exact hx
      · rintro ⟨path, h, hr⟩
        obtain ⟨y, hy, h1, h2⟩ := forall₂_mem_left hf h
        rw [TfOut.follow_ok.mpr hr] at h2
        injection h2 with h2
        have : y = (name, o) := Prod.ext h1 h2.symm
        rwa [← this]
    simp only
    by_cases hc : cls = expected
    · simp only [hc, if_true, true_and]
      refine ⟨⟨fun _ name path h => ?_, fun _ => ⟨_, rfl⟩⟩, ?_, by simp⟩
      · obtain ⟨y, _, _, h2⟩ := forall₂_mem_left hf h
        exact ⟨y.2, TfOut.follow_ok.mp h2⟩
      · intro fields h
        injection h with h
        subst h
        exact hfields
    · simp only [hc, if_false, false_and]
      refine ⟨by simp, by simp, ?_⟩
      intro e h
      injection h with h
      exact h.symm

/-- The names of the flags of both classes differ. -/
example (a b c : Bool) : ((parserFlags a).map (fun f => f.2.1)).Nodup ∧
    ((taggerFlags a b c).map (fun f => f.2.1)).Nodup := by
  constructor
  · simp [parserFlags]
  · simp only [taggerFlags, List.map_cons, List.map_nil]
    decide +kernel

/-- The outputs of a tagger: `upos` with its layers. -/
def Demo.outputs : TfOut :=
  .dict [(['l'], .tensor ['1']), ("upos".toList, .dict [("recur_layer".toList, .tensor ['r']),
    ("hidden_layer".toList, .tensor ['h'])])]

example : (∃ f, tdConstruct ['T'] ['T'] Demo.outputs (taggerFlags true true false) (some (Dict.ofList [(['x'], [['l']])])) =
      .ok f ∧ f.keys = ["tagger_recur_layer".toList, "upos_hidden".toList, ['x']]) ∧
    tdConstruct ['T'] ['T'] Demo.outputs (taggerFlags true true true) none = .error .value ∧
    tdConstruct ['P'] ['T'] Demo.outputs (taggerFlags true true false) none = .error .value :=
  ⟨⟨_, rfl, by decide +kernel⟩, rfl, rfl⟩

/-! ### C117 -/

theorem udProcess_empty {pipe : List UdWord → Res (List UdWord)} {d : Document} (hb : Built d)
    (h : d.sentences = []) : ∃ d', udProcess pipe d = .ok d' := by
  obtain ⟨d', h1, _⟩ := udProcess_total (pipe := pipe) hb.docOk (by rw [h]; simp)
  exact ⟨d', h1⟩

theorem udProcess_none {pipe : List UdWord → Res (List UdWord)} (hp : ∀ ws, pipe ws = .error .attribute)
    {d : Document} (h : d.sentences ≠ []) : udProcess pipe d = .error .attribute := by
  obtain ⟨s, ss, hs⟩ := List.exists_cons_of_ne_nil h
  simp [udProcess, hs, mapM', udSentence, hp]

/-- C117 (refuted): loading a model never raises, even if there is none. -/
theorem C117_load_refuted (files : Str → Option UdModel) (path : Str) (h : files path = none) :
    loadUdpipe files path = .ok none := by
  simp [loadUdpipe, h]

/-- C117, what holds for missing models: the processor made without a model raises `AttributeError` for exactly
those documents that have a sentence; documents without sentences are returned. -/
theorem C117_missing_partial (pipe : List UdWord → Res (List UdWord))
    (hp : pipe = udTagger none ∨ pipe = udParser none ∨ pipe = udTaggerParser none)
    (docs : List Document) (hb : ∀ d ∈ docs, Built d) :
    ((∃ d ∈ docs, d.sentences ≠ []) → udProcessAll pipe docs = .error .attribute) ∧
    ((∀ d ∈ docs, d.sentences = []) → ∃ outs, udProcessAll pipe docs = .ok outs) := by
  have hp2 : ∀ ws, pipe ws = .error .attribute := by
    rcases hp with rfl | rfl | rfl <;> intro ws <;> rfl
  refine ⟨?_, fun h => mapM'_total (fun d hd => udProcess_empty (hb d hd) (h d hd))⟩
  unfold udProcessAll
  induction docs with
  | nil => simp
  | cons d ds ih =>
    intro h
    by_cases hd : d.sentences = []
    · obtain ⟨d', h1⟩ := udProcess_empty (pipe := pipe) (hb d (by simp)) hd
      have := ih (fun d hd => hb d (by simp [hd])) (by
        obtain ⟨x, hx, hne⟩ := h
        rcases List.mem_cons.mp hx with rfl | hx
        · exact absurd hd hne
        · exact ⟨x, hx, hne⟩)
      simp [mapM', h1, this]
    · simp [mapM', udProcess_none hp2 hd]

/-- C117 (refuted): whether UDPipe reports success or failure makes no difference. -/
theorem C117_ignored_refuted (m m' : UdModel) (ht : ∀ ws, (m.tag ws).2 = (m'.tag ws).2)
    (hp : ∀ ws, (m.parse ws).2 = (m'.parse ws).2) (docs : List Document) :
    udProcessAll (udTagger (some m)) docs = udProcessAll (udTagger (some m')) docs ∧
    udProcessAll (udParser (some m)) docs = udProcessAll (udParser (some m')) docs ∧
    udProcessAll (udTaggerParser (some m)) docs = udProcessAll (udTaggerParser (some m')) docs := by
  have h1 : udTagger (some m) = udTagger (some m') := funext (fun ws => by simp [udTagger, ht])
  have h2 : udParser (some m) = udParser (some m') := funext (fun ws => by simp [udParser, hp])
  have h3 : udTaggerParser (some m) = udTaggerParser (some m') :=
    funext (fun ws => by simp [udTaggerParser, ht, hp])
  rw [h1, h2, h3]
  exact ⟨rfl, rfl, rfl⟩

/-- A model all of whose calls fail, without changing anything: tokens are returned without any annotation. -/
example : (udProcessAll (udTaggerParser (some ⟨fun ws => (false, ws), fun ws => (false, ws)⟩)) [Demo.doc]).map
      (fun ds => ds.flatMap (fun d => d.tokens.map (fun t => (t.pos.isSome, t.headSent)))) =
    .ok [(false, none), (false, none), (false, none), (false, none)] := by decide +kernel
example : Demo.doc.sentences ≠ [] ∧ udProcessAll (udTagger none) [Demo.doc] = .error .attribute := by
  decide +kernel

/-! ### C118 -/

theorem canonFeats_udFeats {s : Str} (h : CanonFeats s) (hne : s ≠ []) :
    ∃ f : Dict Str Str, f.entries ≠ [] ∧ (∀ e ∈ f.entries, FeatOk e) ∧ s = udFeats f := by
  rcases h with rfl | ⟨items, h1, h2, h3, h4, h5⟩
  · exact absurd rfl hne
  · refine ⟨Dict.ofList items, ?_, ?_, ?_⟩
    · rw [Dict.ofList_entries _ h3]; exact h1
    · rw [Dict.ofList_entries _ h3]; exact h2
    · unfold udFeats
      rw [Dict.ofList_entries _ h3, if_neg (by simpa using h1), h5]
      have : pySorted (· ≤ ·) (items.map featStr) = items.map featStr := pySorted_eq_self _ h4
      rw [this]
      rfl

theorem canonFeats_attrs {s : Str} (h : CanonFeats s) (hne : s ≠ []) :
    ∃ f, Attrs (some s) f ∧ udFeats f = s ∧ f.entries ≠ [] := by
  obtain ⟨f, h1, h2, h3⟩ := canonFeats_udFeats h hne
  obtain ⟨_, d, h5, h6⟩ := udFeats_parse h2 h1
  have he : d.entries.Perm f.entries := Dict.pyEq_perm.mp (Dict.pyEq_iff.mpr (fun k => (h6 k).symm))
  have hd : d.entries ≠ [] := fun h0 => h1 (by rw [h0] at he; exact he.symm.eq_nil)
  refine ⟨d, by rw [h3]; exact attrs_of h5, ?_, hd⟩
  have := featsField_congr h6
  unfold featsField at this
  unfold udFeats at h3 ⊢
  rw [if_neg (by simpa using h1), if_neg (by simpa using hd)] at this
  rw [if_neg (by simpa using h1)] at h3
  rw [if_neg (by simpa using hd), h3, this]

theorem udFeats_congr {d e : Dict Str Str} (h : SameMap d e) (hd : d.entries ≠ []) : udFeats d = udFeats e := by
  have hp : d.entries.Perm e.entries := Dict.pyEq_perm.mp (Dict.pyEq_iff.mpr h)
  have he : e.entries ≠ [] := fun h0 => hd (by rw [h0] at hp; exact hp.eq_nil)
  have := featsField_congr h
  unfold featsField at this
  unfold udFeats
  rw [if_neg (by simpa using hd), if_neg (by simpa using he)] at this ⊢
  exact this

/-- What is written for a token that was annotated from a tagged word is that word. -/
theorem toUd_annotated {text : Str} {t u : Token} {w : UdWord} (ha : AnnotatedAs t w u)
    (hf : w.form = tokText text t) (hh : w.head = -1) (hd : w.deprel = []) (hc : CanonFeats w.feats) :
    toUd text u = w := by
  have htext : tokText text u = tokText text t := by
    unfold tokText docText
    rw [ha.place.start, ha.place.stop, ha.place.repl]
  have hl : u.lemma'.getD [] = w.lemma' := by
    rw [ha.lemma']
    cases w.lemma' <;> rfl
  by_cases h0 : w.upostag = [] ∧ w.xpostag = [] ∧ w.feats = []
  · obtain ⟨h1, h2, h3⟩ := h0
    unfold toUd
    rw [ha.noPos h1 h2 h3]
    simp only [htext, hl, ← hf]
    cases w
    simp_all
  · obtain ⟨p, hp, h1, h2, h3⟩ := ha.pos (by
      by_contra hc
      push Not at hc
      exact h0 hc)
    have hg : ∀ s : Str, (clean (some s)).getD [] = s := by intro s; cases s <;> rfl
    have hfe : udFeats p.feats = w.feats := by
      by_cases hne : w.feats = []
      · rw [hne] at h3 ⊢
        have : p.feats.entries = [] := by
          by_contra hx
          obtain ⟨e, l, he⟩ := List.exists_cons_of_ne_nil hx
          have h4 : p.feats.get? e.1 = none := h3 e.1
          rw [Dict.get?_none] at h4
          exact h4 (by simp [Dict.keys, he])
        simp [udFeats, this]
      · obtain ⟨f, h4, h5, h6⟩ := canonFeats_attrs hc hne
        have hcl : clean (some w.feats) = some w.feats := by
          cases hx : w.feats with
          | nil => exact absurd hx hne
          | cons => rfl
        rw [hcl] at h3
        rw [← h5]
        exact (udFeats_congr (fun k => Attrs.unique h4 h3 k) h6).symm
    unfold toUd
    rw [hp]
    simp only [htext, hl, h1, h2, hg, hfe, ← hf]
    cases w
    simp_all

theorem fromUd_samePlace {ts us : List Token} (h : List.Forall₂ SamePlace ts us) (ws : List UdWord) :
    fromUd us ws = fromUd ts ws := by
  unfold fromUd
  induction h generalizing ws with
  | nil => rfl
  | @cons t u ts us h _ ih =>
    cases ws with
    | nil => rfl
    | cons w ws =>
      have h1 : fromUdWord (u, w) = fromUdWord (t, w) := by
        rw [fromUdWord_eq, fromUdWord_eq]
        split
        · rfl
        · simp only [udToken, h.start, h.stop, h.sub, h.repl, h.extras]
      simp only [List.zip_cons_cons, mapM', h1, ih]

theorem onlyTags_answer {ws ws' : List UdWord} (h : OnlyTags ws ws') : UdAnswer ws.length ws' := by
  refine ⟨h.length_eq.symm, ?_⟩
  intro w hw hne
  obtain ⟨_, _, _, _, _, hc⟩ := forall₂_mem_right h hw
  obtain ⟨f, hf, _⟩ := canonFeats_attrs hc hne
  exact ⟨f, hf⟩

theorem mapM'_congr_mem {α β : Type} {f g : α → Res β} {l : List α} (h : ∀ x ∈ l, f x = g x) :
    mapM' f l = mapM' g l := by
  induction l with
  | nil => rfl
  | cons a l ih => simp only [mapM', h a (by simp), ih (fun x hx => h x (by simp [hx]))]

theorem zip_coincides {ts us : List Token} (h : List.Forall₂ SamePlace ts us) (vs : List Token) :
    ((ts.zip vs).any fun p => !p.1.coincides p.2) = ((us.zip vs).any fun p => !p.1.coincides p.2) := by
  induction h generalizing vs with
  | nil => rfl
  | @cons t u ts us h _ ih =>
    cases vs with
    | nil => rfl
    | cons v vs =>
      have : t.coincides v = u.coincides v := by
        simp only [Token.coincides, h.start, h.stop, h.sub]
      simp only [List.zip_cons_cons, List.any_cons, this, ih]

/-- C118: for a model whose tagger sets lemmas, tags and properly written features only, the combined processor
gives exactly what the parser gives for the documents that the tagger returns, exceptions included; and the tagger
does return documents. -/
theorem C118_composition (m : UdModel) (docs : List Document) (hb : ∀ d ∈ docs, Built d)
    (ht : ∀ d ∈ docs, ∀ s ∈ d.sentences, OnlyTags ((d.sentenceTokens s).map (toUd d.text))
      (m.tag ((d.sentenceTokens s).map (toUd d.text))).2) :
    ∃ mid, udProcessAll (udTagger (some m)) docs = .ok mid ∧
      udProcessAll (udTaggerParser (some m)) docs = udProcessAll (udParser (some m)) mid := by
  have key : ∀ d ∈ docs, ∃ d', udProcess (udTagger (some m)) d = .ok d' ∧
      udProcess (udTaggerParser (some m)) d = udProcess (udParser (some m)) d' := by
    intro d hd
    have hok := (hb d hd).docOk
    have hlen : ∀ s ∈ d.sentences, (d.sentenceTokens s).length = s.stop - s.start := by
      intro s hs
      show (slice d.tokens s.start s.stop).length = _
      rw [slice_length]
      have := (hok.tiles.mem hs).2
      omega
    obtain ⟨d', h1, h2, h3, h4⟩ := udProcess_total (pipe := udTagger (some m)) hok (by
      intro s hs
      refine ⟨_, rfl, ?_⟩
      have := onlyTags_answer (ht d hd s hs)
      rwa [List.length_map, hlen s hs] at this)
    refine ⟨d', h1, ?_⟩
    have hsent : ∀ s ∈ d.sentences, udSentence (udTaggerParser (some m)) d s =
        udSentence (udParser (some m)) d' s := by
      intro s hs
      obtain ⟨ws, h5, h6, h7⟩ := h4 s hs
      simp only [udTagger, Except.ok.injEq] at h5
      have ht1 := ht d hd s hs
      rw [h5] at ht1
      have hl := ht1.length_eq
      rw [List.length_map] at hl
      have hplace : List.Forall₂ SamePlace (d.sentenceTokens s) (d'.sentenceTokens s) := by
        refine forall₂_getElem?.mpr ⟨h6.symm, ?_⟩
        intro j t u htj huj
        have hj : j < ws.length := by rw [← hl]; exact (List.getElem?_eq_some_iff.mp htj).1
        exact (h7 j t _ u htj (List.getElem?_eq_getElem hj) huj).place
      have hwords : (d'.sentenceTokens s).map (toUd d'.text) = ws := by
        apply List.ext_getElem?
        intro j
        rw [List.getElem?_map]
        cases huj : (d'.sentenceTokens s)[j]? with
        | none =>
          have : ws.length ≤ j := by rw [← hl, ← h6]; exact List.getElem?_eq_none_iff.mp huj
          rw [List.getElem?_eq_none_iff.mpr this]
          rfl
        | some u =>
          have hj : j < (d.sentenceTokens s).length := by rw [← h6]; exact (List.getElem?_eq_some_iff.mp huj).1
          have hjw : j < ws.length := by rw [← hl]; exact hj
          have e1 := List.getElem?_eq_getElem hj
          have e2 := List.getElem?_eq_getElem hjw
          obtain ⟨q1, q2, q3, q4⟩ := (forall₂_getElem?.mp ht1).2 j _ _ (by rw [List.getElem?_map, e1]; rfl) e2
          have := toUd_annotated (text := d.text) (h7 j _ _ u e1 e2 huj)
            (by rw [q1]; exact (C64_input d.text _).1) q2 q3 q4
          rw [h2, e2, Option.map_some, this]
      unfold udSentence
      rw [show (slice d'.tokens s.start s.stop).map (toUd d'.text) = ws from hwords]
      simp only [udTaggerParser, udParser]
      rw [show (m.tag ((slice d.tokens s.start s.stop).map (toUd d.text))).2 = ws from h5]
      exact (fromUd_samePlace hplace _).symm
    unfold udProcess
    rw [h3, mapM'_congr_mem hsent]
    split
    · rfl
    · rename_i tss htss
      have hz : ((d.tokens.zip (pySorted tokLe tss.flatten)).any fun p => !p.1.coincides p.2) =
          ((d'.tokens.zip (pySorted tokLe tss.flatten)).any fun p => !p.1.coincides p.2) := by
        rcases udProcess_structure hok h1 with ⟨_, _, hp⟩ | ⟨_, ht0, hs0⟩
        · exact zip_coincides hp _
        · rw [h3] at hs0
          rw [hs0] at htss
          simp only [mapM', Except.ok.injEq] at htss
          subst htss
          simp [pySorted]
      unfold Document.fromDocument
      rw [h2, h3]
      simp only [hz]
  obtain ⟨mid, hm⟩ : ∃ mid, udProcessAll (udTagger (some m)) docs = .ok mid := mapM'_total (fun d hd => by
    obtain ⟨d', h1, _⟩ := key d hd
    exact ⟨d', h1⟩)
  refine ⟨mid, hm, ?_⟩
  have hf := mapM'_ok_iff.mp hm
  clear hm hb ht
  unfold udProcessAll
  induction hf with
  | nil => rfl
  | @cons d d' ds ds' h _ ih =>
    obtain ⟨d'', h1, h2⟩ := key d (by simp)
    rw [h1] at h
    injection h with h
    subst h
    simp only [mapM', h2, ih (fun d hd => key d (by simp [hd]))]

/-- A tagger that does what is asked for, with two features. -/
def Demo.udModel : UdModel where
  tag ws := (true, ws.map (fun w => { w with upostag := ['N'], lemma' := w.form, feats := "A=b|C=d".toList }))
  parse ws := (true, ws.map (fun w => { w with head := 0, deprel := if w.feats = "A=b|C=d".toList then ['r'] else [] }))

example : CanonFeats "A=b|C=d".toList :=
  .inr ⟨[(['A'], ['b']), (['C'], ['d'])], by decide, by decide +kernel, by decide, by decide +kernel, by decide +kernel⟩
example : (udProcessAll (udTaggerParser (some Demo.udModel)) [Demo.doc]).map
      (fun ds => ds.flatMap (fun d => d.tokens.map (fun t => (t.headSent, t.deprel)))) =
    .ok [(some (-1), some ['r']), (some (-1), some ['r']), (some (-1), some ['r']), (some (-1), some ['r'])] := by
  decide +kernel

/-- With features in another order the parser may see other words than the combined processor, since the wrapper
sorts them. -/
theorem C118_order_needed : ∃ m : UdModel, ∃ docs mid : List Document, (∀ d ∈ docs, Built d) ∧
    udProcessAll (udTagger (some m)) docs = .ok mid ∧
    udProcessAll (udTaggerParser (some m)) docs ≠ udProcessAll (udParser (some m)) mid := by
  let m : UdModel :=
    { tag := fun ws => (true, ws.map (fun w => { w with feats := "C=d|A=b".toList }))
      parse := Demo.udModel.parse }
  have h1 : (udProcessAll (udTagger (some m)) [Demo.doc]).isOk = true := by decide +kernel
  cases hm : udProcessAll (udTagger (some m)) [Demo.doc] with
  | error e => rw [hm] at h1; cases h1
  | ok mid =>
    refine ⟨m, [Demo.doc], mid, by simpa using Demo.docBuilt, hm, ?_⟩
    intro h
    have h2 : (match udProcessAll (udTagger (some m)) [Demo.doc] with
      | .ok mid => decide ((udProcessAll (udTaggerParser (some m)) [Demo.doc]).map
          (fun ds => ds.flatMap (fun d => d.tokens.map (fun t => t.deprel))) =
          (udProcessAll (udParser (some m)) mid).map
          (fun ds => ds.flatMap (fun d => d.tokens.map (fun t => t.deprel))))
      | .error _ => true) = false := by decide +kernel
    rw [hm] at h2
    simp only [h] at h2
    simp at h2

end Verif
