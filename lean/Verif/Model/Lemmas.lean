import Verif.Py

/-!
# Model of babylondigger/lemmas/transformation_rules.py

The trie is mutable in Python; nodes are never shared, so the model rebuilds the path instead.
A missing (`None`) child table or rule list and an empty one are not distinguished: `_get_child`
and `_extend` treat them alike.
-/

namespace Verif

/-- transformation_rules.py:17-34 `LemmaSuffixTransformation`. -/
structure LemmaRule where
  wordSuffix : Str
  lemmaSuffix : Str
  exc : Bool
  deriving DecidableEq, Repr

/-- transformation_rules.py:24-26 `is_regular`. -/
def LemmaRule.isRegular (r : LemmaRule) : Bool := !r.exc

/-- `word.endswith(s)`. -/
def endsWith (word s : Str) : Bool := s.isSuffixOf word

/-- transformation_rules.py:36-37 `is_applicable`. -/
def LemmaRule.isApplicable (r : LemmaRule) (word : Str) : Bool := endsWith word r.wordSuffix

/-- transformation_rules.py:39-42 `transform`. -/
def LemmaRule.transform (r : LemmaRule) (word : Str) : Res Str :=
  if !r.isApplicable word then .error .value
  else .ok (word.take (word.length - r.wordSuffix.length) ++ r.lemmaSuffix)

/-- transformation_rules.py:74-79 `common_start`, the loop from position `i` on. -/
def commonStart : Str → Str → Nat
  | a :: w, b :: l => if a = b then commonStart w l + 1 else 0
  | _, _ => 0

/-- transformation_rules.py:72-82 `get_rule`. -/
def LemmaRule.getRule (word lemma' : Str) : LemmaRule :=
  ⟨word.drop (commonStart word lemma'), lemma'.drop (commonStart word lemma'),
    commonStart word lemma' == 0⟩

/-- transformation_rules.py:54-59 `__eq__` between two rules. -/
def LemmaRule.pyEq (a b : LemmaRule) : Bool :=
  a.wordSuffix == b.wordSuffix && a.lemmaSuffix == b.lemmaSuffix && a.exc == b.exc

/-- transformation_rules.py:69-70 `__tuple_view`; its hash is the rule's hash (66-67). -/
def LemmaRule.tupleView (r : LemmaRule) : Str × Str × Bool := (r.wordSuffix, r.lemmaSuffix, r.exc)

/-- transformation_rules.py:61-64 `__lt__` between two rules: the order of the tuples, i.e. of
the first differing component. -/
def LemmaRule.lt (a b : LemmaRule) : Bool :=
  if a.wordSuffix ≠ b.wordSuffix then decide (a.wordSuffix < b.wordSuffix)
  else if a.lemmaSuffix ≠ b.lemmaSuffix then decide (a.lemmaSuffix < b.lemmaSuffix)
  else !a.exc && b.exc

/-- A rule with its index, as stored in the trie. -/
abbrev Entry := LemmaRule × Nat

/-- transformation_rules.py:88-92 `LemmaTransformationTrie`. -/
inductive Trie where
  | node (children : List (Char × Trie)) (regular exceptions : List Entry)

namespace Trie

/-- transformation_rules.py:89-92 `__init__`. -/
def empty : Trie := node [] [] []

def children : Trie → List (Char × Trie)
  | node c _ _ => c

def regular : Trie → List Entry
  | node _ r _ => r

def exceptions : Trie → List Entry
  | node _ _ e => e

/-- transformation_rules.py:94-97 `_get_child`. -/
def getChild (t : Trie) (ch : Char) : Option Trie := assocGet ch t.children

/-- transformation_rules.py:99-104 `__get_or_add_child`, followed by storing the changed child. -/
def setChild (t : Trie) (ch : Char) (child : Trie) : Trie :=
  node (assocSet ch child t.children) t.regular t.exceptions

/-- transformation_rules.py:106-120 `__add_rule`. -/
def addRule (t : Trie) (e : Entry) : Trie :=
  if e.1.isRegular then node t.children (t.regular ++ [e]) t.exceptions
  else node t.children t.regular (t.exceptions ++ [e])

/-- transformation_rules.py:139-143 `__put_rule`; the second argument is the rest of the reversed
word suffix. -/
def put (t : Trie) : List Char → Entry → Trie
  | [], e => t.addRule e
  | c :: cs, e => t.setChild c (put ((t.getChild c).getD empty) cs e)

/-- transformation_rules.py:135-148 `build`. -/
def build (rules : List Entry) : Trie :=
  rules.foldl (fun t e => t.put e.1.wordSuffix.reverse e) empty

/-- transformation_rules.py:122-133 `get_applicable_rules`, walking the reversed word. -/
def walk (t : Trie) : List Char → List Entry
  | [] => t.exceptions
  | c :: cs =>
    t.regular ++ (match t.getChild c with
      | none => t.exceptions
      | some child => walk child cs)

/-- transformation_rules.py:122-133 `get_applicable_rules`. -/
def getApplicableRules (t : Trie) (word : Str) : List Entry := t.walk word.reverse

end Trie

end Verif
