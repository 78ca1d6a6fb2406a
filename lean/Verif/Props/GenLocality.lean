import Verif.Spec.GenLocality
import Verif.Lemmas.GenClasses
import Verif.DemoGen
import Mathlib.Data.List.Nodup
import Mathlib.Data.List.Perm.Subperm

/-!
# C81: what the code generated for a class depends on
-/

namespace Verif.Gen

open Classical

/-! ## Lemmas -/

/-- the block for a class, given what it may depend on -/
def jsonBlock (vis : Option Str) (w : ClassView) : List Item :=
  let c : Class := ⟨w.qname, true, [], w.members, w.friends, w.hasDefaultCtor⟩
  let vis := vis.getD []
  let pushPrivate := befriends c (lit "ReflectiveRapidJSON::JsonReflector::push")
  let pullPrivate := befriends c (lit "ReflectiveRapidJSON::JsonReflector::pull")
  let bases := w.bases
  let pushed := (c.fields.filter fun f => pushPrivate || f.isPublic).map FieldD.name
  let pulled := ((c.fields.filter fun f => !f.isConst).filter fun f => pullPrivate || f.isPublic).map FieldD.name
  [.classComment c.qname, .pushOpen vis c.qname] ++ bases.map .pushBase ++ [.pushComment] ++ pushed.map .pushMember
    ++ (if bases.isEmpty && pushed.isEmpty then [.pushVoid] else []) ++ [.funEnd]
    ++ (if !c.hasDefaultCtor then [] else
      [.pullOpen vis c.qname] ++ bases.map .pullBase ++ [.pullSetRecord c.qname] ++ pulled.map .pullMember
        ++ (if bases.isEmpty && pulled.isEmpty then [.pullVoid] else []) ++ [.pullRestore, .funEndBlank])

def binaryBlock (vis : Option Str) (w : ClassView) : List Item :=
  let c : Class := ⟨w.qname, true, [], w.members, w.friends, w.hasDefaultCtor⟩
  let vis := vis.getD []
  let writePrivate := befriends c (lit "ReflectiveRapidJSON::BinaryReflector::writeCustomType")
  let readPrivate := befriends c (lit "ReflectiveRapidJSON::BinaryReflector::readCustomType")
  let bases := w.bases
  let wl := writeLoop writePrivate {} c.members
  let rd := readLoop readPrivate {} c.members
  let relevantBase := w.versionType.getD []
  [.classComment c.qname, .writeOpen vis c.qname] ++ bases.map .writeBase
    ++ (if relevantBase.isEmpty then [] else [.writeVersion relevantBase]) ++ [.writeComment]
    ++ wl.1 ++ concludeCondition wl.2
    ++ (if bases.isEmpty && !wl.2.membersWritten then [.writeVoid] else []) ++ [.funEnd]
    ++ (if !c.hasDefaultCtor then [] else
      [.readOpen vis c.qname] ++ bases.map .readBase
        ++ (if relevantBase.isEmpty then [] else [.readVersion relevantBase c.qname]) ++ [.readComment]
        ++ rd.1 ++ concludeCondition rd.2
        ++ (if bases.isEmpty && !rd.2.membersWritten then [.readVoid] else []) ++ [.readReturn, .funEndBlank])

theorem jsonClass_block (cfg : Config) (tu : TU) (wf : tu.WellFormed) (n : Node) :
    jsonClass cfg tu (findRelevantClasses cfg tu) (entry cfg tu n) = jsonBlock cfg.visibility (view cfg tu n) := by
  unfold jsonClass
  simp only
  rw [findBases_eq cfg tu wf]
  rfl

theorem binaryClass_block (cfg : Config) (tu : TU) (wf : tu.WellFormed) (n : Node) :
    binaryClass cfg tu (findRelevantClasses cfg tu) (entry cfg tu n) = binaryBlock cfg.visibility (view cfg tu n) := by
  unfold binaryClass
  simp only
  rw [findBases_eq cfg tu wf]
  have : ((entry cfg tu n).relevantBase.map BaseSpec.typeName).getD [] = (view cfg tu n).versionType.getD [] := by
    simp only [entry, relevantBaseOf, view]
    split <;> rfl
  rw [this]
  rfl

theorem renderAll_append (a b : List Item) : renderAll (a ++ b) = renderAll a ++ renderAll b := List.flatMap_append ..

theorem renderAll_flatMap {α : Type} (l : List α) (f : α → List Item) : renderAll (l.flatMap f) = l.flatMap fun x => renderAll (f x) := by
  unfold renderAll
  rw [List.flatMap_assoc]

theorem json_blocks (cfg : Config) (tu : TU) (wf : tu.WellFormed) : InBlocks jsonHeader jsonFooter (renderAll (generateJson cfg tu)) (wanted cfg tu)
    fun n => renderAll (jsonBlock cfg.visibility (view cfg tu n)) := by
  unfold generateJson
  simp only
  refine ⟨fun h => ?_, fun h => ?_⟩
  · rw [findRelevantClasses_eq cfg tu wf, h]
    rfl
  · rw [if_neg (by rw [findRelevantClasses_eq cfg tu wf]; simpa using h), renderAll_append, renderAll_append, renderAll_flatMap]
    conv => lhs; lhs; rhs; arg 2; rw [findRelevantClasses_eq cfg tu wf]
    rw [List.flatMap_map]
    simp only [jsonClass_block cfg tu wf]
    rfl

theorem binary_blocks (cfg : Config) (tu : TU) (wf : tu.WellFormed) : InBlocks binaryHeader binaryFooter (renderAll (generateBinary cfg tu)) (wanted cfg tu)
    fun n => renderAll (binaryBlock cfg.visibility (view cfg tu n)) := by
  unfold generateBinary
  simp only
  refine ⟨fun h => ?_, fun h => ?_⟩
  · rw [findRelevantClasses_eq cfg tu wf, h]
    rfl
  · rw [if_neg (by rw [findRelevantClasses_eq cfg tu wf]; simpa using h), renderAll_append, renderAll_append, renderAll_flatMap]
    conv => lhs; lhs; rhs; arg 2; rw [findRelevantClasses_eq cfg tu wf]
    rw [List.flatMap_map]
    simp only [binaryClass_block cfg tu wf]
    rfl

/-! ## The theorems -/

/-- **C81**: There is a function giving, for each visibility attribute and `ClassView`, the text generated for the class: the output for any
translation unit consists of these texts, class by class. So the code for a class depends on nothing else - neither on other classes (except
for the names of wanted bases), nor on comments, order of unrelated declarations etc. For JSON the version does not matter. -/
theorem C81_json_locality : ∃ text : Option Str → ClassView → Str,
    (∀ vis w t, text vis { w with versionType := t } = text vis w) ∧
    ∀ cfg tu, tu.WellFormed →
      InBlocks jsonHeader jsonFooter (renderAll (generateJson cfg tu)) (wanted cfg tu) fun n => text cfg.visibility (view cfg tu n) :=
  ⟨fun vis w => renderAll (jsonBlock vis w), fun _ _ _ => rfl, fun cfg tu wf => json_blocks cfg tu wf⟩

/-- **C81** for the binary format. -/
theorem C81_binary_locality : ∃ text : Option Str → ClassView → Str, ∀ cfg tu, tu.WellFormed →
    InBlocks binaryHeader binaryFooter (renderAll (generateBinary cfg tu)) (wanted cfg tu) fun n => text cfg.visibility (view cfg tu n) :=
  ⟨fun vis w => renderAll (binaryBlock vis w), fun cfg tu wf => binary_blocks cfg tu wf⟩

theorem filter_eq_of_sublist {α : Type} {l l' : List α} (h : l.Sublist l') (p : α → Bool) (hn : (l'.filter p).Nodup)
    (hp : ∀ x ∈ l', p x = true → x ∈ l) : l.filter p = l'.filter p := by
  refine (h.filter p).eq_of_length_le ?_
  refine (List.subperm_of_subset hn fun x hx => ?_).length_le
  obtain ⟨h1, h2⟩ := List.mem_filter.1 hx
  exact List.mem_filter.2 ⟨hp x h1 h2, h2⟩

theorem nodes_sublist {tu tu' : TU} (h : tu.decls.Sublist tu'.decls) : tu.nodes.Sublist tu'.nodes := h.filterMap _

section
variable {cfg : Config} {tu tu' : TU} (h : UnrelatedAdded cfg tu tu')
include h

theorem adapted_unrelated (q : Str) : Adapted cfg tu' q ↔ Adapted cfg tu q := by
  constructor
  · rintro ⟨a, ha, h1, h2, d, h3, h4⟩
    have h1' : IsAdaption cfg tu a := by
      unfold IsAdaption at h1 ⊢
      rwa [h.cls] at h1
    refine ⟨a, ?_, h1', h2, d, h3, by rwa [h.cls] at h4⟩
    by_contra hn
    exact (h.unrelated a ha hn).1 h1'
  · rintro ⟨a, ha, h1, h2, d, h3, h4⟩
    refine ⟨a, (nodes_sublist h.decls).subset ha, ?_, h2, d, h3, by rwa [h.cls]⟩
    unfold IsAdaption at h1 ⊢
    rwa [h.cls]

theorem wanted_unrelated_iff (n : Node) : Wanted cfg tu' n ↔ Wanted cfg tu n := by
  unfold Wanted
  rw [adapted_unrelated h, h.cls]
  unfold IsAdaption InheritsSerializable BaseSpec.Serializable
  rw [h.cls]

theorem wanted_unrelated : (wanted cfg tu).Sublist (wanted cfg tu') := by
  unfold wanted
  have : (fun n => decide (Wanted cfg tu' n)) = fun n => decide (Wanted cfg tu n) := by
    funext n
    simp only [wanted_unrelated_iff h]
  rw [this]
  exact (nodes_sublist h.decls).filter _

theorem bases_unrelated (wf' : tu'.WellFormed) {m : Node} (hm : m ∈ wanted cfg tu) : wantedBases cfg tu' m.cls = wantedBases cfg tu m.cls := by
  have hd : ∀ c d, tu'.Derived c d ↔ tu.Derived c d := by
    intro c d
    unfold TU.Derived
    have : tu'.DirectBase = tu.DirectBase := by
      unfold TU.DirectBase
      rw [h.cls]
    rw [this]
  unfold wantedBases wanted
  rw [h.cls, List.filter_filter, List.filter_filter]
  have hf : (fun n => decide (tu'.Derived m.cls n.cls) && decide (Wanted cfg tu' n)) =
      fun n => decide (tu.Derived m.cls n.cls) && decide (Wanted cfg tu n) := by
    funext n
    simp only [wanted_unrelated_iff h, hd]
  rw [hf]
  congr 1
  refine (filter_eq_of_sublist (nodes_sublist h.decls) _ ?_ fun n hn hp => ?_).symm
  · have h1 := wf'.oneDefinition
    have h2 : (tu'.nodes.filter fun n => n.complete).Nodup := List.Nodup.of_map _ h1
    refine h2.sublist ?_
    have : (tu'.nodes.filter fun n => decide (tu.Derived m.cls n.cls) && decide (Wanted cfg tu n)) =
        (tu'.nodes.filter fun n => n.complete).filter fun n => decide (tu.Derived m.cls n.cls) && decide (Wanted cfg tu n) := by
      rw [List.filter_filter]
      apply List.filter_congr
      intro n _
      by_cases hw : Wanted cfg tu n
      · simp [hw, hw.1]
      · simp [hw]
    rw [this]
    exact List.filter_sublist
  · by_contra hn2
    simp only [Bool.and_eq_true, decide_eq_true_eq] at hp
    exact (h.unrelated n hn hn2).2 m hm hp.1

theorem view_unrelated (wf' : tu'.WellFormed) {m : Node} (hm : m ∈ wanted cfg tu) : view cfg tu' m = view cfg tu m := by
  have hs : ∀ b : BaseSpec, b.Serializable cfg tu' ↔ b.Serializable cfg tu := by
    intro b
    unfold BaseSpec.Serializable
    rw [h.cls]
  unfold view
  simp only [bases_unrelated h wf' hm, adapted_unrelated h, hs, h.cls]

end

/-- **C81**: Adding unrelated declarations - classes, templates, anything except adaptions and base classes of existing classes - anywhere in
the translation unit does not change the code for the other classes: the blocks and their order stay the same, blocks are just inserted. -/
theorem C81_unrelated_declarations (cfg : Config) (tu tu' : TU) (wf : tu.WellFormed) (wf' : tu'.WellFormed) (h : UnrelatedAdded cfg tu tu') :
    (wanted cfg tu).Sublist (wanted cfg tu') ∧
    (∃ block, InBlocks jsonHeader jsonFooter (renderAll (generateJson cfg tu)) (wanted cfg tu) block ∧
      InBlocks jsonHeader jsonFooter (renderAll (generateJson cfg tu')) (wanted cfg tu') block) ∧
    (∃ block, InBlocks binaryHeader binaryFooter (renderAll (generateBinary cfg tu)) (wanted cfg tu) block ∧
      InBlocks binaryHeader binaryFooter (renderAll (generateBinary cfg tu')) (wanted cfg tu') block) := by
  have hv : ∀ m ∈ wanted cfg tu, view cfg tu' m = view cfg tu m := fun m hm => view_unrelated h wf' hm
  refine ⟨wanted_unrelated h, ⟨_, ?_, json_blocks cfg tu' wf'⟩, ⟨_, ?_, binary_blocks cfg tu' wf'⟩⟩
  · refine ⟨(json_blocks cfg tu wf).1, fun hne => ?_⟩
    rw [(json_blocks cfg tu wf).2 hne]
    congr 2
    exact List.flatMap_congr fun m hm => by rw [hv m hm]
  · refine ⟨(binary_blocks cfg tu wf).1, fun hne => ?_⟩
    rw [(binary_blocks cfg tu wf).2 hne]
    congr 2
    exact List.flatMap_congr fun m hm => by rw [hv m hm]

/-- **C81**: In particular nothing changes at all if the added declarations are not ones code is wanted for. -/
theorem C81_irrelevant_declarations (cfg : Config) (tu tu' : TU) (wf : tu.WellFormed) (wf' : tu'.WellFormed) (h : UnrelatedAdded cfg tu tu')
    (hi : ∀ n ∈ wanted cfg tu', n ∈ tu.nodes) :
    renderAll (generateJson cfg tu') = renderAll (generateJson cfg tu) ∧ renderAll (generateBinary cfg tu') = renderAll (generateBinary cfg tu) := by
  have he : wanted cfg tu = wanted cfg tu' := by
    have hs := wanted_unrelated h
    refine hs.eq_of_length_le ?_
    have hnd : (wanted cfg tu').Nodup := by
      have h2 : (tu'.nodes.filter fun n => n.complete).Nodup := List.Nodup.of_map _ wf'.oneDefinition
      refine h2.sublist ?_
      have : wanted cfg tu' = (tu'.nodes.filter fun n => n.complete).filter fun n => decide (Wanted cfg tu' n) := by
        unfold wanted
        rw [List.filter_filter]
        apply List.filter_congr
        intro n _
        by_cases hw : Wanted cfg tu' n
        · simp [hw, hw.1]
        · simp [hw]
      rw [this]
      exact List.filter_sublist
    refine (List.subperm_of_subset hnd fun n hn => ?_).length_le
    unfold wanted at hn ⊢
    rw [List.mem_filter] at hn ⊢
    exact ⟨hi n (List.mem_filter.2 hn), by simpa [wanted_unrelated_iff h] using hn.2⟩
  obtain ⟨-, ⟨b, h1, h2⟩, ⟨b', h3, h4⟩⟩ := C81_unrelated_declarations cfg tu tu' wf wf' h
  rw [← he] at h2 h4
  by_cases hw : wanted cfg tu = []
  · exact ⟨by rw [h1.1 hw, h2.1 hw], by rw [h3.1 hw, h4.1 hw]⟩
  · exact ⟨by rw [h1.2 hw, h2.2 hw], by rw [h3.2 hw, h4.2 hw]⟩

section
variable {cfg : Config} {tu tu' : TU} (h : BasesReordered tu tu')
include h

theorem reordered_qname (c : ClassId) : (tu'.cls c).qname = (tu.cls c).qname := by rw [h.rest c]

theorem reordered_defined (c : ClassId) : (tu'.cls c).hasDefinition = (tu.cls c).hasDefinition := by rw [h.rest c]

theorem reordered_nodes : tu'.nodes = tu.nodes := by
  unfold TU.nodes
  rw [h.decls]

theorem reordered_adaption (n : Node) : IsAdaption cfg tu' n ↔ IsAdaption cfg tu n := by
  unfold IsAdaption
  rw [reordered_qname h, reordered_defined h]

theorem reordered_adapted (q : Str) : Adapted cfg tu' q ↔ Adapted cfg tu q := by
  unfold Adapted
  simp only [reordered_nodes h, reordered_adaption h, reordered_qname h]

theorem reordered_serializable (b : BaseSpec) : b.Serializable cfg tu' ↔ b.Serializable cfg tu := by
  unfold BaseSpec.Serializable
  simp only [reordered_qname h]

theorem reordered_wanted : wanted cfg tu' = wanted cfg tu := by
  unfold wanted
  rw [reordered_nodes h]
  have : ∀ n, Wanted cfg tu' n ↔ Wanted cfg tu n := by
    intro n
    unfold Wanted InheritsSerializable
    simp only [reordered_adaption h, reordered_adapted h, reordered_qname h, reordered_serializable h, (h.bases n.cls).mem_iff]
  simp only [this]

theorem reordered_bases (c : ClassId) : wantedBases cfg tu' c = wantedBases cfg tu c := by
  unfold wantedBases TU.Derived
  have : tu'.DirectBase = tu.DirectBase := by
    unfold TU.DirectBase
    funext c d
    simp only [(h.bases c).mem_iff]
  simp only [reordered_wanted h, this, reordered_qname h]

theorem reordered_view (n : Node) : view cfg tu' n = { view cfg tu n with versionType := (view cfg tu' n).versionType } := by
  unfold view
  simp only [reordered_bases h]
  rw [h.rest n.cls]

theorem reordered_wf (wf : tu.WellFormed) : tu'.WellFormed where
  basesFirst c b hb d hd := wf.basesFirst c b ((h.bases c).mem_iff.1 hb) d hd
  oneDefinition := by rw [reordered_nodes h]; exact wf.oneDefinition
  defined n hn hc := by rw [reordered_defined h]; exact wf.defined n (reordered_nodes h ▸ hn) hc

theorem reordered_version (ho : OneSerializableBase cfg tu) (n : Node) : (view cfg tu' n).versionType = (view cfg tu n).versionType := by
  unfold view
  simp only [reordered_adapted h, reordered_qname h, reordered_serializable h]
  split
  · rfl
  cases h1 : (tu.cls n.cls).bases.find? fun b => decide (b.Serializable cfg tu) with
  | none =>
    rw [List.find?_eq_none] at h1
    rw [List.find?_eq_none.2 fun b hb => h1 b ((h.bases n.cls).mem_iff.1 hb)]
  | some b =>
    have hb := List.mem_of_find?_eq_some h1
    have hs : b.Serializable cfg tu := by simpa using List.find?_some h1
    cases h2 : (tu'.cls n.cls).bases.find? fun b => decide (b.Serializable cfg tu) with
    | none =>
      rw [List.find?_eq_none] at h2
      exact absurd (by simpa using hs) (h2 b ((h.bases n.cls).mem_iff.2 hb))
    | some b' =>
      have hb' := (h.bases n.cls).mem_iff.1 (List.mem_of_find?_eq_some h2)
      have hs' : b'.Serializable cfg tu := by simpa using List.find?_some h2
      simp only [Option.map_some, ho n.cls b' hb' b hb hs' hs]

end

/-- **C81**: The order of the base specifiers of classes does not matter: the generated text is the same. For the binary format this
needs that no class inherits from different instantiations of `BinarySerializable`. -/
theorem C81_base_specifier_order (cfg : Config) (tu tu' : TU) (wf : tu.WellFormed) (h : BasesReordered tu tu') :
    renderAll (generateJson cfg tu') = renderAll (generateJson cfg tu) ∧
    (OneSerializableBase cfg tu → renderAll (generateBinary cfg tu') = renderAll (generateBinary cfg tu)) := by
  have wf' := reordered_wf h wf
  constructor
  · have h1 := json_blocks cfg tu wf
    have h2 := json_blocks cfg tu' wf'
    rw [reordered_wanted h] at h2
    by_cases hw : wanted cfg tu = []
    · rw [h1.1 hw, h2.1 hw]
    · rw [h1.2 hw, h2.2 hw]
      congr 2
      refine List.flatMap_congr fun m _ => ?_
      rw [reordered_view h]
      rfl
  · intro ho
    have h1 := binary_blocks cfg tu wf
    have h2 := binary_blocks cfg tu' wf'
    rw [reordered_wanted h] at h2
    by_cases hw : wanted cfg tu = []
    · rw [h1.1 hw, h2.1 hw]
    · rw [h1.2 hw, h2.2 hw]
      congr 2
      refine List.flatMap_congr fun m _ => ?_
      rw [reordered_view h, reordered_version h ho]

/-! ## Limits and examples -/

namespace LocalityDemo

/-- 0: instantiations of `BinarySerializable`; 1, 2: classes without relation to each other; 3: `struct D : A, B` -/
def cls (c : Nat) : Class :=
  match c with
  | 0 => Demo.named "ReflectiveRapidJSON::BinarySerializable"
  | 1 => Demo.named "A" [⟨some 0, lit "BinarySerializable<A>", 0⟩] [Demo.field "a"]
  | 2 => Demo.named "B" [⟨some 0, lit "BinarySerializable<B>", 0⟩] [Demo.field "b"]
  | 3 => Demo.named "D" [⟨some 1, lit "A", 0⟩, ⟨some 2, lit "B", 0⟩, ⟨some 0, lit "BinarySerializable<D>", 0⟩] [Demo.field "d"]
  | _ => ⟨[], false, [], [], [], false⟩

def config : Config := binaryConfig none none

def aFirst : TU := ⟨cls, [.record (Demo.node 1), .record (Demo.node 2), .record (Demo.node 3)]⟩
def bFirst : TU := ⟨cls, [.record (Demo.node 2), .record (Demo.node 1), .record (Demo.node 3)]⟩

theorem cls_bases : ∀ c : Nat, ∀ b ∈ (cls c).bases, ∀ d : Nat, b.cls = some d → d < c := by
  intro c
  unfold cls
  split <;> simp [Demo.named]

theorem aFirst_wf : aFirst.WellFormed := ⟨cls_bases, by decide +kernel, by decide +kernel⟩
theorem bFirst_wf : bFirst.WellFormed := ⟨cls_bases, by decide +kernel, by decide +kernel⟩

end LocalityDemo

/-- **C81**, limit: The order in which classes are *defined* does matter for derived classes. Moving the definition of `B` in front of `A`
changes what is done for `struct D : A, B`: the bases are handled in the order of their definitions, not in the order in which `D` lists
them. So binary data written before cannot be read anymore although no class has been changed. -/
theorem C81_limit_definition_order : ∃ (cfg : Config) (tu tu' : TU), tu.WellFormed ∧ tu'.WellFormed ∧ tu'.cls = tu.cls ∧ tu'.decls.Perm tu.decls ∧
    ∃ f ∈ functions (generateBinary cfg tu), ∃ f' ∈ functions (generateBinary cfg tu'),
      (f.kind, f.qname) = (FnKind.write, lit "D") ∧ (f'.kind, f'.qname) = (FnKind.write, lit "D") ∧
      ∀ version, exec version f.body = some [.base (lit "A"), .base (lit "B"), .version (lit "BinarySerializable<D>"), .member (lit "d")] ∧
        exec version f'.body = some [.base (lit "B"), .base (lit "A"), .version (lit "BinarySerializable<D>"), .member (lit "d")] := by
  refine ⟨LocalityDemo.config, LocalityDemo.aFirst, LocalityDemo.bFirst, LocalityDemo.aFirst_wf, LocalityDemo.bFirst_wf, rfl,
    List.Perm.swap .., ⟨.write, lit "D", [.writeBase (lit "A"), .writeBase (lit "B"), .writeVersion (lit "BinarySerializable<D>"),
      .writeComment, .writeMember (lit "d")]⟩, by decide +kernel, ⟨.write, lit "D", [.writeBase (lit "B"), .writeBase (lit "A"),
      .writeVersion (lit "BinarySerializable<D>"), .writeComment, .writeMember (lit "d")]⟩, by decide +kernel, rfl, rfl,
    fun version => ⟨rfl, rfl⟩⟩

namespace LocalityDemo

/-- `D` lists its bases in another order. -/
def reordered : TU := ⟨fun c => if c = 3 then { cls 3 with bases := (cls 3).bases.reverse } else cls c, aFirst.decls⟩

theorem reordered_of : BasesReordered aFirst reordered where
  decls := rfl
  bases c := by
    show (if c = 3 then _ else _ : Class).bases.Perm (cls c).bases
    split
    · subst c; exact List.reverse_perm _
    · exact List.Perm.refl _
  rest c := by
    by_cases hc : c = 3
    · subst c; rfl
    · have h : reordered.cls c = cls c := if_neg hc
      rw [h]
      rfl

theorem oneBase : OneSerializableBase config aFirst := by
  intro c b hb b' hb' h h'
  have key : ∀ b ∈ (cls c).bases, b.Serializable config aFirst → b.cls = some 0 := by
    rintro b hb ⟨d, h1, h2⟩
    have : d = 0 := by
      have h2 : (cls d).qname = lit "ReflectiveRapidJSON::BinarySerializable" := h2
      unfold cls at h2
      split at h2
      · rfl
      all_goals exact absurd h2 (by decide +kernel)
    rw [h1, this]
  have h1 := key b hb h
  have h2 := key b' hb' h'
  have hb : b ∈ (cls c).bases := hb
  have hb' : b' ∈ (cls c).bases := hb'
  unfold cls at hb hb'
  split at hb
  all_goals simp [Demo.named] at hb hb'
  all_goals (try subst hb); (try subst hb'); try rfl
  rcases hb with rfl | rfl | rfl <;> rcases hb' with rfl | rfl | rfl <;> simp at h1 h2 ⊢

example : renderAll (generateBinary config reordered) = renderAll (generateBinary config aFirst) :=
  (C81_base_specifier_order config aFirst reordered aFirst_wf reordered_of).2 oneBase

/-- `D` removed: `A` and `B` do not depend on it. -/
def without : TU := ⟨cls, [.record (Demo.node 1), .other, .record (Demo.node 2)]⟩
def with' : TU := ⟨cls, [.record (Demo.node 1), .other, .record (Demo.node 3), .record (Demo.node 2)]⟩

theorem without_wf : without.WellFormed := ⟨cls_bases, by decide +kernel, by decide +kernel⟩
theorem with_wf : with'.WellFormed := ⟨cls_bases, by decide +kernel, by decide +kernel⟩

theorem unrelated : UnrelatedAdded config without with' where
  cls := rfl
  decls := by
    refine .cons_cons _ (.cons_cons _ (.cons _ (.refl _)))
  unrelated n hn hn' := by
    have hn : n = Demo.node 1 ∨ n = Demo.node 3 ∨ n = Demo.node 2 := by simpa [TU.nodes, with'] using hn
    have h1 : n ≠ Demo.node 1 := fun h => hn' (h ▸ by decide +kernel)
    have h2 : n ≠ Demo.node 2 := fun h => hn' (h ▸ by decide +kernel)
    rcases hn with h | rfl | h
    · exact absurd h h1
    · refine ⟨fun ⟨_, h, _⟩ => h rfl, fun m hm hd => ?_⟩
      have hlt := derived_lt without without_wf hd
      have : m ∈ without.nodes := List.mem_of_mem_filter hm
      have : m = Demo.node 1 ∨ m = Demo.node 2 := by simpa [TU.nodes, without] using this
      rcases this with rfl | rfl
      · exact absurd hlt (by decide)
      · exact absurd hlt (by decide)
    · exact absurd h h2

example := C81_unrelated_declarations config without with' without_wf with_wf unrelated

end LocalityDemo

end Verif.Gen
