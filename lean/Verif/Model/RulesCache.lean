import Verif.Model.Extractors

/-! # Training data as an object that is iterated over (extractors.py) -/

namespace Verif

/-- Something to train on: what makes it equal to others as a dictionary key (`none`: it has no hash, like a list), and what
iterating over it gives the first time, the second time, and so on. -/
structure DataObj where
  key : Option Nat
  pass : Nat → List Document

/-- A list: it can be iterated over again and has no hash. -/
def DataObj.list (docs : List Document) : DataObj := ⟨none, fun _ => docs⟩

/-- A generator: it has a hash, and is exhausted after the first time. -/
def DataObj.generator (key : Nat) (docs : List Document) : DataObj := ⟨some key, fun n => if n = 0 then docs else []⟩

/-- extractors.py:437-439: the cache of a rules builder; next to it how many times each data set has been iterated over. -/
structure RulesSt where
  cache : List (Nat × List LemmaRule) := []
  passes : Nat → Nat := fun _ => 0

/-- extractors.py:441-447 `CachedSuffixRulesBuilder.build_rules`.  What has no hash cannot be looked up. -/
def buildRulesCached (lower : Str → Str) (threshold : Int) (ds : DataObj) (st : RulesSt) : Res (List LemmaRule) × RulesSt :=
  match ds.key with
  | none => (.error .type, st)
  | some k =>
    match assocGet k st.cache with
    | some rules => (.ok rules, st)
    | none =>
      match buildRules lower threshold (ds.pass (st.passes k)) with
      | .error e => (.error e, { st with passes := fun j => if j = k then st.passes k + 1 else st.passes j })
      | .ok rules => (.ok rules, ⟨st.cache ++ [(k, rules)], fun j => if j = k then st.passes k + 1 else st.passes j⟩)

/-- The builds of the feature and of the label of one provider (provider.py:165-169), and whatever else asks the same rules
builder, one after the other; other builders may iterate over the data sets in between, as often as `others` says. -/
def rulesCalls (lower : Str → Str) (threshold : Int) : List (DataObj × (Nat → Nat)) → RulesSt → List (Res (List LemmaRule))
  | [], _ => []
  | (ds, others) :: calls, st =>
    (buildRulesCached lower threshold ds { st with passes := fun k => st.passes k + others k }).1 ::
      rulesCalls lower threshold calls
        (buildRulesCached lower threshold ds { st with passes := fun k => st.passes k + others k }).2

end Verif
