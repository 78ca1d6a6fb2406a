import Verif.Lemmas.Lit
import Verif.Props.Generator
import Lean.Elab.Tactic

/-!
# The theorems about the code generators applied to concrete translation units
-/

namespace Verif.Gen

theorem demo_wf : Demo.tu.WellFormed where
  basesFirst := by
    intro c b hb d hd
    by_cases hc : c ≤ 10
    · have key : ∀ c : Nat, c ≤ 10 → (Demo.tu.cls c).bases.all (fun b => match b.cls with
          | some d => decide (d < c)
          | none => true) = true := by
        intro c hc
        have : c = 0 ∨ c = 1 ∨ c = 2 ∨ c = 3 ∨ c = 4 ∨ c = 5 ∨ c = 6 ∨ c = 7 ∨ c = 8 ∨ c = 9 ∨ c = 10 := by omega
        rcases this with rfl | rfl | rfl | rfl | rfl | rfl | rfl | rfl | rfl | rfl | rfl <;> rfl
      have := List.all_eq_true.1 (key c hc) b hb
      rw [hd] at this
      exact of_decide_eq_true this
    · obtain ⟨k, rfl⟩ : ∃ k, c = k + 11 := ⟨c - 11, by omega⟩
      cases hb
  oneDefinition := by decide +kernel
  defined := by decide +kernel

/-- the classes found in the demo translation unit: the included base is left out, the adapted one is in -/
example : (wanted Demo.json Demo.tu).map Node.cls = [8, 3, 4, 5, 6, 10] := by
  have h := congrArg (List.map fun r => r.node.cls) (findRelevantClasses_eq Demo.json Demo.tu demo_wf)
  rw [List.map_map] at h
  exact h.symm.trans (by decide +kernel)

example : (wanted Demo.binary Demo.tu).map Node.cls = [3, 4, 5, 6] := by
  have h := congrArg (List.map fun r => r.node.cls) (findRelevantClasses_eq Demo.binary Demo.tu demo_wf)
  rw [List.map_map] at h
  exact h.symm.trans (by decide +kernel)

/-- C43 with the names of the library's templates applies to the demo translation unit -/
example := C43_json_classes none none Demo.tu demo_wf (lit "N::Leaf")
example := C43_binary_classes none none Demo.tu demo_wf (lit "N::Leaf")

/-- C44: the bases of the most derived class, direct and indirect but not the included one -/
example : ((functions (generateBinary Demo.binary Demo.tu)).map fun f => (f.kind, f.qname, exec 0 f.body)).drop 4 =
    [(.write, lit "N::Leaf", some [.base (lit "N::Root"), .base (lit "N::Mid"),
        .version (lit "ReflectiveRapidJSON::BinarySerializable<X, 3>"), .member (lit "d")]),
     (.read, lit "N::Leaf", some [.base (lit "N::Root"), .base (lit "N::Mid"),
        .version (lit "ReflectiveRapidJSON::BinarySerializable<X, 3>"), .member (lit "d")]),
     (.write, lit "N::Special", some [.version (lit "ReflectiveRapidJSON::BinarySerializable<X, 3>"), .member (lit "always")])] := by
  decide +kernel

/-- C47: members by version -/
example : [1, 2, 3, 4, 5].map (fun v => (functions (generateBinary Demo.binary Demo.tu)).reverse.head?.bind fun f => exec v f.body) =
    [["always"], ["always", "p", "q"], ["always", "p", "q"], ["always", "p"], ["always", "p", "r"]].map fun ms =>
      some (.version (lit "ReflectiveRapidJSON::BinarySerializable<X, 3>") :: ms.map fun m => .member (lit m)) := by
  decide +kernel

example : NamesOk Demo.binary Demo.tu := by
  refine ⟨?_, ?_, ?_, ?_⟩
  · intro v hv
    cases hv
    decide +kernel
  · intro c
    show NoBraces (Demo.cls c).qname
    unfold Demo.cls
    split <;> decide +kernel
  · intro c
    show ∀ b ∈ (Demo.cls c).bases, NoBraces b.typeName
    unfold Demo.cls
    split <;> decide +kernel
  · intro c f
    show Member.field f ∈ (Demo.cls c).members → NoBraces f.name
    have key : (Demo.cls c).members.all (fun m => match m with
        | .field f => f.name.all fun x => decide (x ≠ 123 ∧ x ≠ 125)
        | _ => true) = true := by
      unfold Demo.cls
      split <;> decide +kernel
    intro hf
    have := List.all_eq_true.1 key _ hf
    simp only [List.all_eq_true, decide_eq_true_eq] at this
    exact this

/-! ## The reference output in the repository

generator/testfiles/some_structs.h with `TestNamespace2::ThirdPartyStruct` requested explicitly
(generator/tests/jsongenerator.cpp) results in generator/testfiles/some_structs_json_serialization.h. -/

def refTU : TU where
  cls := fun c => match c with
    | 0 => Demo.named "ReflectiveRapidJSON::JsonSerializable"
    | 1 => Demo.named "TestNamespace1::Person" [⟨some 0, lit "ReflectiveRapidJSON::JsonSerializable<TestNamespace1::Person>", 0⟩]
      [Demo.field "age", Demo.field "alive"]
    | 2 => Demo.named "TestNamespace1::NonReflectableClass" [] [Demo.field "foo"]
    | 3 => Demo.named "TestNamespace1::SomeOtherNonReflectableClass" [⟨some 2, lit "TestNamespace1::NonReflectableClass", 0⟩] [Demo.field "bar"]
    | 4 => Demo.named "TestNamespace2::ThirdPartyStruct" [] [Demo.field "test1", Demo.field "test2"]
    | _ => ⟨[], false, [], [], [], false⟩
  decls := [.record (Demo.node 1), .record (Demo.node 2), .record (Demo.node 3), .record (Demo.node 4)]

/-- the content of generator/testfiles/some_structs_json_serialization.h (cut into pieces) -/
def reference : List String := [
  "namespace ReflectiveRapidJSON {\nnamespace JsonReflector {\n\n",
  "// define code for (de)serializing TestNamespace1::Person objects\n",
  "template <>  void push<::TestNamespace1::Person>(const ::TestNamespace1::Person &reflectable, ::RAPIDJSON_NAMESPACE::Value::Object &value, ::RAPIDJSON_NAMESPACE::Document::AllocatorType &allocator)\n{\n    // push base classes\n",
  "    // push members\n",
  "    push(reflectable.age, \"age\", value, allocator);\n",
  "    push(reflectable.alive, \"alive\", value, allocator);\n",
  "}\n",
  "template <>  void pull<::TestNamespace1::Person>(::TestNamespace1::Person &reflectable, const ::RAPIDJSON_NAMESPACE::GenericValue<::RAPIDJSON_NAMESPACE::UTF8<char>>::ConstObject &value, JsonDeserializationErrors *errors)\n{\n    // pull base classes\n",
  "    // set error context for current record\n    const char *previousRecord = nullptr;\n    if (errors) {\n        previousRecord = errors->currentRecord;\n        errors->currentRecord = \"TestNamespace1::Person\";\n    }\n    // pull members\n",
  "    pull(reflectable.age, \"age\", value, errors);\n",
  "    pull(reflectable.alive, \"alive\", value, errors);\n",
  "    // restore error context for previous record\n    if (errors) {\n        errors->currentRecord = previousRecord;\n    }\n",
  "}\n\n",
  "// define code for (de)serializing TestNamespace2::ThirdPartyStruct objects\n",
  "template <>  void push<::TestNamespace2::ThirdPartyStruct>(const ::TestNamespace2::ThirdPartyStruct &reflectable, ::RAPIDJSON_NAMESPACE::Value::Object &value, ::RAPIDJSON_NAMESPACE::Document::AllocatorType &allocator)\n{\n    // push base classes\n",
  "    // push members\n",
  "    push(reflectable.test1, \"test1\", value, allocator);\n",
  "    push(reflectable.test2, \"test2\", value, allocator);\n",
  "}\n",
  "template <>  void pull<::TestNamespace2::ThirdPartyStruct>(::TestNamespace2::ThirdPartyStruct &reflectable, const ::RAPIDJSON_NAMESPACE::GenericValue<::RAPIDJSON_NAMESPACE::UTF8<char>>::ConstObject &value, JsonDeserializationErrors *errors)\n{\n    // pull base classes\n",
  "    // set error context for current record\n    const char *previousRecord = nullptr;\n    if (errors) {\n        previousRecord = errors->currentRecord;\n        errors->currentRecord = \"TestNamespace2::ThirdPartyStruct\";\n    }\n    // pull members\n",
  "    pull(reflectable.test1, \"test1\", value, errors);\n",
  "    pull(reflectable.test2, \"test2\", value, errors);\n",
  "    // restore error context for previous record\n    if (errors) {\n        errors->currentRecord = previousRecord;\n    }\n",
  "}\n\n",
  "} // namespace JsonReflector\n} // namespace ReflectiveRapidJSON\n"]

/-- The code generated for the test file, as items. -/
theorem generated_items : generateJson (jsonConfig (some [lit "TestNamespace2::ThirdPartyStruct"]) none) refTU =
    [.nsOpen (lit "JsonReflector"),
      .classComment (lit "TestNamespace1::Person"),
      .pushOpen [] (lit "TestNamespace1::Person"),
      .pushComment,
      .pushMember (lit "age"),
      .pushMember (lit "alive"),
      .funEnd,
      .pullOpen [] (lit "TestNamespace1::Person"),
      .pullSetRecord (lit "TestNamespace1::Person"),
      .pullMember (lit "age"),
      .pullMember (lit "alive"),
      .pullRestore,
      .funEndBlank,
      .classComment (lit "TestNamespace2::ThirdPartyStruct"),
      .pushOpen [] (lit "TestNamespace2::ThirdPartyStruct"),
      .pushComment,
      .pushMember (lit "test1"),
      .pushMember (lit "test2"),
      .funEnd,
      .pullOpen [] (lit "TestNamespace2::ThirdPartyStruct"),
      .pullSetRecord (lit "TestNamespace2::ThirdPartyStruct"),
      .pullMember (lit "test1"),
      .pullMember (lit "test2"),
      .pullRestore,
      .funEndBlank,
      .nsClose (lit "JsonReflector")] := by
  decide +kernel

/-- The text generated for the test file is the content of the reference file. -/
theorem generated_matches_reference :
    renderAll (generateJson (jsonConfig (some [lit "TestNamespace2::ThirdPartyStruct"]) none) refTU) = reference.flatMap lit := by
  rw [generated_items]
  simp only [renderAll, Item.render, reference, List.flatMap_cons, List.flatMap_nil, reduceLit]
  decide +kernel

end Verif.Gen
