import Verif.Props.WrapperState

/-!
# C116: what the flags of the graph-based parser and tagger ask for
-/

namespace Verif

theorem parserFlags_names (recur : Bool) : ((parserFlags recur).map (fun f => f.2.1)).Nodup := by
  simp [parserFlags]

theorem taggerFlags_names (a b c : Bool) : ((taggerFlags a b c).map (fun f => f.2.1)).Nodup := by
  simp only [taggerFlags, List.map_cons, List.map_nil]
  decide +kernel

/-- The field of a flag, unless the caller asks for a field of that name. -/
theorem flag_field {cls expected : Str} {outputs : TfOut} {flags : List (Bool × Str × List Str)}
    (hn : (flags.map (fun f => f.2.1)).Nodup) {ef : Option (Dict Str (List Str))} {fields : Dict Str TfOut}
    (h : tdConstruct cls expected outputs flags ef = .ok fields) {flag : Bool} {name : Str} {path : List Str}
    (hf : (flag, name, path) ∈ flags) (hc : (ef.getD Dict.empty).get? name = none) (o : TfOut) :
    fields.get? name = some o ↔ flag = true ∧ Reaches outputs path o := by
  have key : ∀ b q, (b, name, q) ∈ flags → b = flag ∧ q = path := by
    intro b q hb
    have hi := List.inj_on_of_nodup_map hn hb hf rfl
    simp only [Prod.mk.injEq, true_and] at hi
    exact hi
  rw [(C116_construct cls expected outputs flags hn ef).2.1 fields h name o]
  constructor
  · rintro ⟨q, hq, hr⟩
    rcases hq with hq | ⟨_, hq⟩
    · rw [hc] at hq; cases hq
    · obtain ⟨rfl, rfl⟩ := key _ _ hq
      exact ⟨rfl, hr⟩
  · rintro ⟨rfl, hr⟩
    exact ⟨path, .inr ⟨hc, hf⟩, hr⟩

/-- C116: the flag of the parser is for the recurrent layer of the parse. -/
theorem C116_parser_flag (cls expected : Str) (outputs : TfOut) (recur : Bool) (ef : Option (Dict Str (List Str)))
    (fields : Dict Str TfOut) (h : tdConstruct cls expected outputs (parserFlags recur) ef = .ok fields)
    (hc : (ef.getD Dict.empty).get? "parser_recur_layer".toList = none) (o : TfOut) :
    fields.get? "parser_recur_layer".toList = some o ↔
      recur = true ∧ Reaches outputs ["deptree".toList, "recur_layer".toList] o :=
  flag_field (parserFlags_names recur) h (.head _) hc o

/-- C116: the flags of the tagger are for its recurrent layer and for the hidden layers of both kinds of tags. -/
theorem C116_tagger_flags (cls expected : Str) (outputs : TfOut) (recur upos xpos : Bool)
    (ef : Option (Dict Str (List Str))) (fields : Dict Str TfOut)
    (h : tdConstruct cls expected outputs (taggerFlags recur upos xpos) ef = .ok fields)
    (hc : ∀ name ∈ ["tagger_recur_layer", "upos_hidden", "xpos_hidden"], (ef.getD Dict.empty).get? name.toList = none)
    (o : TfOut) :
    (fields.get? "tagger_recur_layer".toList = some o ↔
      recur = true ∧ Reaches outputs ["upos".toList, "recur_layer".toList] o) ∧
    (fields.get? "upos_hidden".toList = some o ↔
      upos = true ∧ Reaches outputs ["upos".toList, "hidden_layer".toList] o) ∧
    (fields.get? "xpos_hidden".toList = some o ↔
      xpos = true ∧ Reaches outputs ["xpos".toList, "hidden_layer".toList] o) :=
  ⟨flag_field (taggerFlags_names recur upos xpos) h (.head _) (hc _ (.head _)) o,
   flag_field (taggerFlags_names recur upos xpos) h (.tail _ (.head _)) (hc _ (.tail _ (.head _))) o,
   flag_field (taggerFlags_names recur upos xpos) h (.tail _ (.tail _ (.head _))) (hc _ (.tail _ (.tail _ (.head _)))) o⟩

/-- With two flags both layers are there. -/
example : ∃ f, tdConstruct ['T'] ['T'] Demo.outputs (taggerFlags true true false) none = .ok f ∧
    f.keys = ["tagger_recur_layer".toList, "upos_hidden".toList] := ⟨_, rfl, by decide +kernel⟩

/-- A parser with its recurrent layer. -/
example : ∃ f, tdConstruct ['T'] ['T'] (.dict [("deptree".toList, .dict [("recur_layer".toList, .tensor ['r'])])])
    (parserFlags true) none = .ok f ∧ f.keys = ["parser_recur_layer".toList] := ⟨_, rfl, by decide +kernel⟩

end Verif
