import Verif.Spec.TokenClass
import Verif.Proofs.Datamodel

/-! # Tokens of all classes: forgetting the class commutes with everything documents do -/

namespace Verif

namespace TokObj

theorem newDocumentToken_ok (x : Str) (t : Token) : newDocumentToken x t = .ok (.doc x t) := by
  simp [newDocumentToken, Token.new_ok]

/-- Through its own class an update gives the updated attributes in an object that keeps the text
of the document. -/
theorem viaClass_own (o : TokObj) (t : Token) :
    ∃ o', o.viaClass o.cls (.ok t) = .ok o' ∧ o'.token = t ∧ o'.documentText = o.documentText ∧
      o'.cls = o.cls ∧ ∀ n, o' ≠ .nav n := by
  cases o with
  | plain u => exact ⟨_, rfl, rfl, rfl, rfl, by intro n h; cases h⟩
  | doc x u =>
    exact ⟨.doc x t, by simp [viaClass, cls, viaToken, documentText, newDocumentToken_ok], rfl, rfl,
      rfl, by intro n h; cases h⟩
  | nav n =>
    exact ⟨.doc n.text t, by simp [viaClass, cls, viaToken, documentText, newDocumentToken_ok], rfl,
      rfl, rfl, by intro n h; cases h⟩

theorem withSyntax_own (o : TokObj) (d a b) :
    (o.withSyntax o.cls d a b).map token = o.token.withSyntax d a b := by
  unfold withSyntax
  rw [Token.withSyntax_ok]
  obtain ⟨o', h, h1, -⟩ := o.viaClass_own
    { o.token with deprel := d, headDoc := a, headSent := b }
  rw [h]; simp [Except.map, h1]

theorem fillHeads_token (o : TokObj) (k : Nat) :
    (o.fillHeads k).map token = o.token.fillHeads k := by
  unfold fillHeads Token.fillHeads
  cases hs : o.token.headSent <;> cases hd : o.token.headDoc <;> simp only
  · rfl
  all_goals
    split
    · exact withSyntax_own ..
    · first
        | exact withSyntax_own ..
        | (split
           · rfl
           · exact withSyntax_own ..)

end TokObj

theorem mapM'_map_comm {α β γ δ : Type} {f : α → Res γ} {g : β → Res δ} {p : α → β} {q : γ → δ}
    (h : ∀ a, (f a).map q = g (p a)) (l : List α) :
    (mapM' f l).map (List.map q) = mapM' g (l.map p) := by
  induction l with
  | nil => rfl
  | cons a l ih =>
    simp only [mapM', List.map_cons]
    rw [← h a, ← ih]
    cases f a with
    | error e => rfl
    | ok c =>
      cases mapM' f l with
      | error e => rfl
      | ok cs => rfl

theorem slice_map' {α β : Type} (f : α → β) (l : List α) (a b : Nat) :
    (slice l a b).map f = slice (l.map f) a b := by
  simp [slice, List.map_take, List.map_drop]

theorem fillObjHeads_token (toks : List TokObj) (ss : List Sentence) :
    (fillObjHeads toks ss).map (List.map TokObj.token) =
      fillTokenHeads (toks.map TokObj.token) ss := by
  induction ss with
  | nil => rfl
  | cons s ss ih =>
    unfold fillObjHeads fillTokenHeads
    rw [← slice_map', ← ih,
      ← mapM'_map_comm (p := TokObj.token) (q := TokObj.token)
        (fun o => TokObj.fillHeads_token o s.start)]
    cases mapM' (fun t : TokObj => t.fillHeads s.start) (slice toks s.start s.stop) with
    | error e => rfl
    | ok filled =>
      cases fillObjHeads toks ss with
      | error e => rfl
      | ok rest => simp [Except.map]

theorem orderedInsert_objLe (o : TokObj) (l : List TokObj) :
    (l.orderedInsert objLe o).map TokObj.token =
      (l.map TokObj.token).orderedInsert tokLe o.token := by
  induction l with
  | nil => rfl
  | cons a l ih =>
    simp only [List.orderedInsert, List.map_cons]
    by_cases h : tokLe o.token a.token
    · rw [if_pos h, if_pos (show objLe o a from h)]; rfl
    · rw [if_neg h, if_neg (show ¬ objLe o a from h)]; simp [ih]

theorem pySorted_objLe (l : List TokObj) :
    (pySorted objLe l).map TokObj.token = pySorted tokLe (l.map TokObj.token) := by
  unfold pySorted
  induction l with
  | nil => rfl
  | cons a l ih => simp only [List.insertionSort_cons, List.map_cons]; rw [orderedInsert_objLe, ih]

theorem checkForSequence_map {α β : Type} (f : α → β) (p : β → β → Bool) :
    ∀ l : List α, checkForSequence (fun a b => p (f a) (f b)) l = checkForSequence p (l.map f)
  | [] => rfl
  | [_] => rfl
  | a :: b :: l => by
    simp only [checkForSequence, List.map_cons]
    rw [checkForSequence_map f p (b :: l), List.map_cons]

theorem objWordList_token (toks : List TokObj) (ss : List Sentence) :
    (objWordList toks ss).map (List.map TokObj.token) = wordList (toks.map TokObj.token) ss := by
  unfold objWordList wordList
  simp only
  rw [← pySorted_objLe, checkForSequence_map TokObj.token Token.intersects,
    checkForSequence_map TokObj.token skippedToken]
  split
  · rfl
  · split
    · rfl
    · split
      · rfl
      · exact fillObjHeads_token _ _

theorem DocObj.sents_token (toks : List TokObj) (ss : Option (List Sentence)) :
    DocObj.sents toks ss = sortedSentences (toks.map TokObj.token) ss := by
  unfold DocObj.sents sortedSentences
  cases ss with
  | none => simp
  | some ss => simp

theorem DocObj.new_forget (x : Str) (toks : List TokObj) (ss : Option (List Sentence)) (v : Bool) :
    (DocObj.new x toks ss v).map DocObj.forget = Document.new x (toks.map TokObj.token) ss v := by
  unfold DocObj.new Document.new
  simp only
  rw [DocObj.sents_token, ← objWordList_token]
  cases objWordList toks (sortedSentences (toks.map TokObj.token) ss) with
  | error e => rfl
  | ok os =>
    generalize sortedSentences (toks.map TokObj.token) ss = S
    change Except.map DocObj.forget _ = _
    simp only [show (Except.map (List.map TokObj.token) (Except.ok os : Res (List TokObj))) =
      .ok (os.map TokObj.token) from rfl, List.isEmpty_map, List.length_map]
    cases toks.isEmpty with
    | true => rfl
    | false =>
      cases S.head? with
      | none => rfl
      | some first =>
        cases S.getLast? with
        | none => rfl
        | some last =>
          cases v <;> cases hv : validateSyntax (os.map TokObj.token) S <;>
            simp only [apply_ite (Except.map DocObj.forget), hv] <;> rfl

theorem DocObj.tokensEqObj_token (a b : List TokObj) :
    DocObj.tokensEqObj a b = tokensEq (a.map TokObj.token) (b.map TokObj.token) := by
  induction a generalizing b with
  | nil => cases b <;> rfl
  | cons x a ih =>
    cases b with
    | nil => rfl
    | cons y b => simp only [DocObj.tokensEqObj, List.map_cons, tokensEq, ih]; rfl

theorem DocObj.fromDocument_forget (d : DocObj) (toks : List TokObj) :
    (d.fromDocument toks).map DocObj.forget = d.forget.fromDocument (toks.map TokObj.token) := by
  unfold DocObj.fromDocument Document.fromDocument
  simp only
  rw [← pySorted_objLe]
  have h : (d.tokens.zip (pySorted objLe toks)).any
        (fun p => !p.1.token.coincides p.2.token) =
      (d.forget.tokens.zip ((pySorted objLe toks).map TokObj.token)).any
        (fun p => !p.1.coincides p.2) := by
    simp only [DocObj.forget, List.zip_map, List.any_map]
    rfl
  rw [h]
  split
  · rfl
  · exact DocObj.new_forget _ _ _ _

theorem DocObj.getToken_forget (d : DocObj) (i : Int) :
    d.getToken i = (d.forget.getToken i).map TokObj.nav := by
  unfold DocObj.getToken Document.getToken Verif.getToken
  have h : pyGet d.forget.tokens i = (pyGet d.tokens i).map TokObj.token := by
    unfold pyGet DocObj.forget
    simp only [List.length_map, List.getElem?_map]
    generalize (if i < 0 then i + (d.tokens.length : Int) else i) = j
    split
    · rfl
    · cases d.tokens[j.toNat]? <;> rfl
  rw [h]
  cases pyGet d.tokens i with
  | error e => rfl
  | ok o =>
    simp only [Except.map, TokObj.newDocumentToken_ok, DocObj.forget, List.length_map]
    cases Nav.new d.tokens.length i <;> rfl

theorem Document.new_keeps_text {x : Str} {toks : List Token} {ss : Option (List Sentence)}
    {v : Bool} {d : Document} (h : Document.new x toks ss v = .ok d) : d.text = x := by
  by_cases hne : toks = []
  · subst hne
    rw [Document.new_nil] at h
    injection h with h
    subst h; rfl
  · exact ((Document.new_ok_iff hne).1 h).2.2.2.2.1

theorem DocObj.new_keeps_text {x : Str} {toks : List TokObj} {ss : Option (List Sentence)}
    {v : Bool} {d : DocObj} (h : DocObj.new x toks ss v = .ok d) : d.text = x := by
  have h2 := DocObj.new_forget x toks ss v
  rw [h] at h2
  exact Document.new_keeps_text (d := d.forget) h2.symm

theorem DocObj.fromDocument_keeps_text {d d' : DocObj} {toks : List TokObj}
    (h : d.fromDocument toks = .ok d') : d'.text = d.text := by
  unfold DocObj.fromDocument at h
  simp only at h
  split at h
  · cases h
  · exact DocObj.new_keeps_text h

theorem DocObj.getToken_text {d : DocObj} {i : Int} {o : TokObj} (h : d.getToken i = .ok o) :
    o.documentText = .ok d.text ∧ ∃ n, o = .nav n := by
  unfold DocObj.getToken at h
  cases hp : pyGet d.tokens i with
  | error e => rw [hp] at h; cases h
  | ok a =>
    rw [hp] at h
    simp only [TokObj.newDocumentToken_ok] at h
    cases hn : Nav.new d.tokens.length i with
    | error e => rw [hn] at h; cases h
    | ok n =>
      rw [hn] at h
      injection h with h
      subst h
      exact ⟨rfl, _, rfl⟩

end Verif
