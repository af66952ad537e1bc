import Verif.Proofs.TokenClass
import Verif.Props.Datamodel

/-!
# Tokens of all classes (C154)

`TokObj` is an object of one of the classes `Token`, `DocumentToken` and `NavigableToken`;
`TokObj.token` are the attributes all of them have.
-/

namespace Verif

/-- C154: a document built from objects of any classes is the document built from plain tokens with
the same attributes, and so are the errors; the same for `from_document`, `get_token` and `==`. -/
theorem C154_documents (d e : DocObj) (text : Str) (objs : List TokObj)
    (sents : Option (List Sentence)) (validate : Bool) (i : Int) :
    (DocObj.new text objs sents validate).map DocObj.forget =
      Document.new text (objs.map TokObj.token) sents validate ∧
    (d.fromDocument objs).map DocObj.forget = d.forget.fromDocument (objs.map TokObj.token) ∧
    d.getToken i = (d.forget.getToken i).map TokObj.nav ∧
    d.pyEq e = d.forget.pyEq e.forget := by
  refine ⟨DocObj.new_forget _ _ _ _, d.fromDocument_forget objs, d.getToken_forget i, ?_⟩
  unfold DocObj.pyEq Document.pyEq
  rw [DocObj.tokensEqObj_token]
  rfl

/-- The code points of white space: tabulator, line breaks, the four separators of ASCII, blanks of all widths. -/
def whiteSpace : List Nat :=
  [9, 10, 11, 12, 13, 28, 29, 30, 31, 32, 133, 160, 5760, 8192, 8193, 8194, 8195, 8196, 8197, 8198, 8199, 8200, 8201,
   8202, 8232, 8233, 8239, 8287, 12288]

/-- C154: these are the characters `isspace` and `split` take for white space. -/
theorem C154_white_space (c : Char) : isSpace c = true ↔ c.toNat ∈ whiteSpace := by
  simp only [isSpace, whiteSpace, Bool.or_eq_true, Bool.and_eq_true, decide_eq_true_eq, beq_iff_eq, List.mem_cons,
    List.not_mem_nil, or_false]
  omega

/-- C154: whatever text the objects carried, a token taken from the document shows the text of this
document, and `space_after` is true exactly at its end and before whitespace. -/
theorem C154_text (d d' : DocObj) (text : Str) (objs : List TokObj)
    (sents : Option (List Sentence)) (validate : Bool) (i : Int) (o : TokObj) :
    (DocObj.new text objs sents validate = .ok d' → d'.getToken i = .ok o →
      o.docText = .ok (slice text o.token.start o.token.stop) ∧
      o.text = .ok (o.token.repl.getD (slice text o.token.start o.token.stop)) ∧
      ∃ b, o.spaceAfter = .ok b ∧
        (b = true ↔ o.token.stop = text.length ∨ ∃ c, text[o.token.stop]? = some c ∧ c.toNat ∈ whiteSpace)) ∧
    (d.fromDocument objs = .ok d' → d'.getToken i = .ok o →
      o.docText = .ok (slice d.text o.token.start o.token.stop) ∧
      o.text = .ok (o.token.repl.getD (slice d.text o.token.start o.token.stop)) ∧
      ∃ b, o.spaceAfter = .ok b ∧
        (b = true ↔ o.token.stop = d.text.length ∨ ∃ c, d.text[o.token.stop]? = some c ∧ c.toNat ∈ whiteSpace)) := by
  have key : ∀ x : Str, d'.text = x → d'.getToken i = .ok o →
      o.docText = .ok (slice x o.token.start o.token.stop) ∧
      o.text = .ok (o.token.repl.getD (slice x o.token.start o.token.stop)) ∧
      ∃ b, o.spaceAfter = .ok b ∧
        (b = true ↔ o.token.stop = x.length ∨ ∃ c, x[o.token.stop]? = some c ∧ isSpace c) := by
    intro x hx hg
    obtain ⟨ht, n, rfl⟩ := DocObj.getToken_text hg
    rw [hx] at ht
    have h1 : (TokObj.nav n).docText =
        .ok (slice x (TokObj.nav n).token.start (TokObj.nav n).token.stop) := by
      unfold TokObj.docText; rw [ht]
    refine ⟨h1, ?_, Verif.spaceAfter x (TokObj.nav n).token, by unfold TokObj.spaceAfter; rw [ht], ?_⟩
    · unfold TokObj.text
      simp only
      cases (TokObj.nav n).token.repl with
      | none => exact h1
      | some r => rfl
    · unfold Verif.spaceAfter
      cases x[(TokObj.nav n).token.stop]? <;> simp
  simp only [← C154_white_space]
  exact ⟨fun h => key _ (DocObj.new_keeps_text h), fun h => key _ (DocObj.fromDocument_keeps_text h)⟩

/-- C154: the updates called through a token itself (`token.with_syntax(token, ...)`) never fail, do
to the attributes what they do to those of a plain token, and keep the text. -/
theorem C154_updates (o : TokObj) (pos : Option Pos) (lem dep : Option Str) (hd hs : Option Int)
    (ex : Option TokenExtras) (up : Dict Str ExtraVal) :
    UpdatedTo o (o.token.withMorphology pos lem) (o.withMorphology o.cls pos lem) ∧
    UpdatedTo o (o.token.withSyntax dep hd hs) (o.withSyntax o.cls dep hd hs) ∧
    UpdatedTo o (o.token.withExtras ex) (o.withExtras o.cls ex) ∧
    UpdatedTo o (o.token.updateExtras (some up)) (o.updateExtras o.cls (some up)) ∧
    ∃ o', o.updateExtras o.cls none = .ok o' ∧ o'.token = o.token ∧ ShowsSame o o' := by
  have key : ∀ (t : Token), t.start = o.token.start → t.stop = o.token.stop →
      t.repl = o.token.repl → ∃ o', o.viaClass o.cls (.ok t) = .ok o' ∧ o'.token = t ∧
        ShowsSame o o' ∧ ∀ n, o' ≠ .nav n := by
    intro t h1 h2 h3
    obtain ⟨o', h, ht, hx, hc, hn⟩ := o.viaClass_own t
    have hdt : o.docText = o'.docText := by
      unfold TokObj.docText; rw [hx, ht, h1, h2]
    refine ⟨o', h, ht, ⟨?_, hdt, ?_⟩, hn⟩
    · cases o <;> cases o' <;> simp_all [TokObj.text, TokObj.cls, TokObj.token]
    · unfold TokObj.spaceAfter; rw [hx, ht]; unfold Verif.spaceAfter; rw [h2]
  have upd : ∀ (r : Res Token) (t : Token), r = .ok t → t.start = o.token.start →
      t.stop = o.token.stop → t.repl = o.token.repl → UpdatedTo o r (o.viaClass o.cls r) := by
    intro r t hr h1 h2 h3
    obtain ⟨o', h, ht, hs, hn⟩ := key t h1 h2 h3
    exact ⟨o', by rw [hr]; exact h, by rw [hr, ht], hs, hn⟩
  refine ⟨upd _ _ (Token.withMorphology_ok ..) rfl rfl rfl,
    upd _ _ (Token.withSyntax_ok ..) rfl rfl rfl, upd _ _ (Token.withExtras_ok ..) rfl rfl rfl,
    ?_, ?_⟩
  · have := upd (o.token.updateExtras (some up)) _ (Token.withExtras_ok ..) rfl rfl rfl
    unfold TokObj.updateExtras
    cases h : o.cls <;> simpa [h] using this
  · unfold TokObj.updateExtras
    cases h : o.cls with
    | token => exact ⟨o, rfl, rfl, rfl, rfl, rfl⟩
    | documentToken =>
      obtain ⟨o', h', ht, hs, -⟩ := key o.token rfl rfl rfl
      rw [h] at h'
      exact ⟨o', h', ht, hs⟩

/-- C154: called through the class `Token` an update gives a plain token (without `text`); called
through `DocumentToken` or `NavigableToken` on a plain token it raises `AttributeError`. -/
theorem C154_classes (o : TokObj) (t : Token) (pos : Option Pos) (lem dep : Option Str)
    (hd hs : Option Int) (ex : Option TokenExtras) (up : Dict Str ExtraVal)
    (up' : Option (Dict Str ExtraVal)) :
    ((o.withMorphology .token pos lem) = (o.token.withMorphology pos lem).map .plain ∧
     (o.withSyntax .token dep hd hs) = (o.token.withSyntax dep hd hs).map .plain ∧
     (o.withExtras .token ex) = (o.token.withExtras ex).map .plain ∧
     (o.updateExtras .token (some up)) = (o.token.updateExtras (some up)).map .plain ∧
     o.updateExtras .token none = .ok o ∧ (TokObj.plain t).text = .error .attribute) ∧
    ((TokObj.plain t).withMorphology .documentToken pos lem = .error .attribute ∧
     (TokObj.plain t).withSyntax .documentToken dep hd hs = .error .attribute ∧
     (TokObj.plain t).withExtras .documentToken ex = .error .attribute ∧
     (TokObj.plain t).updateExtras .documentToken up' = .error .attribute) := by
  refine ⟨⟨?_, ?_, ?_, ?_, rfl, rfl⟩, rfl, rfl, rfl, ?_⟩
  · unfold TokObj.withMorphology TokObj.viaClass; cases o.token.withMorphology pos lem <;> rfl
  · unfold TokObj.withSyntax TokObj.viaClass; cases o.token.withSyntax dep hd hs <;> rfl
  · unfold TokObj.withExtras TokObj.viaClass; cases o.token.withExtras ex <;> rfl
  · unfold TokObj.updateExtras TokObj.viaClass
    simp only
    cases o.token.updateExtras (some up) <;> rfl
  · cases up' <;> rfl

/-! A document built from a plain token, tokens carrying another text and a token taken from
another document; the tokens show the text of the new document. -/

/-- The last token of `Demo.doc` as `get_token` gives it, a token with the text of another document
and two plain ones. -/
def Demo.mixed : List TokObj :=
  [.nav { text := "ab cd z".toList, toks := Demo.doc.tokens, headView := Token.headDoc,
          token := Demo.t3, nav := ⟨4, 3⟩ },
   .plain Demo.t1, .doc "xx".toList Demo.t2, .plain Demo.t0]

example : (DocObj.new Demo.text Demo.mixed (some [Demo.s1, Demo.s0]) true).map DocObj.forget =
    .ok Demo.doc := by decide +kernel

example : ((DocObj.new Demo.text Demo.mixed (some [Demo.s1, Demo.s0]) true).bind fun d =>
      (d.getToken 3).bind TokObj.text) = .ok "e".toList ∧
    (Demo.mixed.map TokObj.text) =
      [.ok "z".toList, .error .attribute, .ok [], .error .attribute] := by
  constructor <;> decide +kernel

end Verif
