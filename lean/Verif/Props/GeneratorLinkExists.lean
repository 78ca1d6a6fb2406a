import Verif.Props.GeneratorLink
import Verif.Demo

/-!
# Environments using generated code exist

Every translation unit with unambiguous names has an environment using the code generated for it, so the theorems in
`GeneratorLink` are not about nothing; and an evaluation for a chain of three classes.
-/

namespace Verif.Gen

open Classical

noncomputable def jsonCode (cfg : Config) (tu : TU) (c : ClassId) : JsonCode where
  bases := baseIds cfg tu c
  pushFields := pushedFields tu c
  pullFields := pulledFields tu c
  pullable := (tu.cls c).hasDefaultCtor
  setsRecord := true

theorem baseIds_defined (cfg : Config) (tu : TU) (c : ClassId) : ∀ b ∈ baseIds cfg tu c, IsDefined tu b := by
  intro b hb
  obtain ⟨m, hm, rfl, _⟩ := mem_baseIds.1 hb
  exact ⟨m, (mem_wanted hm).1, (mem_wanted hm).2, rfl⟩

theorem baseCalls_baseIds (cfg : Config) (tu : TU) (c : ClassId) : baseCalls tu (baseIds cfg tu c) = (wantedBases cfg tu c).map .base := by
  rw [baseCalls_eq, wantedBases_ids]

theorem jsonCode_links (cfg : Config) (tu : TU) (wf : tu.WellFormed) (nm : Names tu) (n : Node) (hn : n ∈ wanted cfg tu) :
    LinksJson tu (functions (generateJson cfg tu)) n.cls (jsonCode cfg tu n.cls) := by
  obtain ⟨F, hF, hb⟩ := C46_json_bodies cfg tu wf
  have h49 := C49_deserialization_iff_default_constructible cfg tu wf (tu.cls n.cls).qname
  have hnode : ∀ f ∈ functions (generateJson cfg tu), f.qname = (tu.cls n.cls).qname → f ∈ F n := by
    intro f hf hq
    rw [hF, List.mem_flatMap] at hf
    obtain ⟨m, hm, hf⟩ := hf
    have := node_of_qname wf nm hm hn ((hb m f hf).1.symm.trans hq)
    rwa [← this]
  refine ⟨baseIds_defined cfg tu _, fieldsWith_member, fieldsWith_member, ?_, ?_, ?_, rfl⟩
  · obtain ⟨f, hf, hk, hq⟩ := h49.2.2.1.2 ⟨n, hn, rfl⟩
    refine ⟨f, hf, hk, hq, ?_⟩
    rw [(hb n f (hnode f hf hq)).2.1 hk 0, fieldCalls_of]
    simp only [jsonCode]
    rw [baseCalls_baseIds]; rfl
  · rw [h49.1]
    constructor
    · intro h; exact ⟨n, hn, rfl, h⟩
    · rintro ⟨m, hm, hq, h⟩
      rw [node_of_qname wf nm hm hn hq] at h; exact h
  · intro f hf hk hq
    rw [(hb n f (hnode f hf hq)).2.2.1 hk 0, fieldCalls_of]
    simp only [jsonCode]
    rw [baseCalls_baseIds]; rfl

/-- members with the guard in effect -/
def guardedFields (tu : TU) (c : ClassId) (priv : Bool) : List (Guard × Field) :=
  (guarded (writes priv) {} (tu.cls c).members).map fun gf => (gf.1, fieldOf c gf.2)

theorem guarded_mem (p : FieldD → Bool) (ms : List Member) : ∀ mt, ∀ gf ∈ guarded p mt ms, Member.field gf.2 ∈ ms := by
  induction ms with
  | nil => intro mt gf h; cases h
  | cons m ms ih =>
    intro mt gf h
    cases m with
    | var _ _ => exact List.mem_cons_of_mem _ (ih _ gf h)
    | other => exact List.mem_cons_of_mem _ (ih _ gf h)
    | field f =>
      rw [guarded] at h
      split at h
      · rcases List.mem_cons.1 h with rfl | h
        · exact List.mem_cons_self
        · exact List.mem_cons_of_mem _ (ih _ gf h)
      · exact List.mem_cons_of_mem _ (ih _ gf h)

theorem guardedFields_member (tu : TU) (c : ClassId) (priv : Bool) : ∀ gf ∈ guardedFields tu c priv, IsMember tu c gf.2 := by
  intro gf h
  obtain ⟨g, hg, rfl⟩ := List.mem_map.1 h
  refine ⟨g.2, ?_, rfl⟩
  simp only [Class.fields, List.mem_filterMap]
  exact ⟨_, guarded_mem _ _ _ g hg, rfl⟩

theorem fieldCalls_guarded (tu : TU) (c : ClassId) (priv : Bool) (v : Nat) :
    fieldCalls (activeFields v (guardedFields tu c priv))
      = (((guarded (writes priv) {} (tu.cls c).members).filter fun gf => gf.1.holds v).map (fun gf => gf.2.name)).map .member := by
  unfold guardedFields activeFields fieldCalls
  rw [List.filter_map]
  simp [Function.comp_def, fieldOf]

/-- version of the class according to the base which makes it serializable -/
noncomputable def versionValue (cfg : Config) (tu : TU) (c : ClassId) : Option Nat :=
  match relevantBaseOf cfg tu c with
  | none => none
  | some b => if b.typeName.isEmpty then none else if b.version = 0 then none else some b.version

theorem versionOf_value (cfg : Config) (tu : TU) (c : ClassId) : VersionOf tu c (versionValue cfg tu c) (versionCalls cfg tu c) := by
  unfold versionValue versionCalls versionName
  cases hb : relevantBaseOf cfg tu c with
  | none => exact .inl ⟨rfl, rfl⟩
  | some b =>
    simp only [Option.map_some, Option.getD_some]
    by_cases he : b.typeName.isEmpty = true
    · rw [if_pos he, if_pos he]; exact .inl ⟨rfl, rfl⟩
    · rw [if_neg he, if_neg he]
      refine .inr ⟨b, ?_, rfl, rfl⟩
      unfold relevantBaseOf at hb
      split at hb
      · cases hb
      · exact List.mem_of_find?_eq_some hb

noncomputable def binCode (cfg : Config) (tu : TU) (c : ClassId) : BinCode where
  bases := baseIds cfg tu c
  version := versionValue cfg tu c
  writeFields := guardedFields tu c (canWritePrivate (tu.cls c))
  readFields := guardedFields tu c (canReadPrivate (tu.cls c))
  readable := (tu.cls c).hasDefaultCtor

theorem binCode_links (cfg : Config) (tu : TU) (wf : tu.WellFormed) (nm : Names tu) (n : Node) (hn : n ∈ wanted cfg tu) :
    LinksBin tu (functions (generateBinary cfg tu)) n.cls (binCode cfg tu n.cls) := by
  have h49 := C49_deserialization_iff_default_constructible cfg tu wf (tu.cls n.cls).qname
  have hnode : ∀ f ∈ functions (generateBinary cfg tu), f.qname = (tu.cls n.cls).qname → f ∈ binaryFns cfg tu n := by
    intro f hf hq
    rw [functions_generateBinary cfg tu wf, List.mem_flatMap] at hf
    obtain ⟨m, hm, hf⟩ := hf
    have hmq : f.qname = (tu.cls m.cls).qname := by
      unfold binaryFns at hf
      rcases List.mem_cons.1 hf with rfl | hf
      · rfl
      · by_cases hd : (tu.cls m.cls).hasDefaultCtor = true
        · rw [if_pos hd] at hf; rw [List.mem_singleton.1 hf]
        · rw [if_neg hd] at hf; cases hf
    have := node_of_qname wf nm hm hn (hmq.symm.trans hq)
    rwa [← this]
  have hbody : ∀ f ∈ binaryFns cfg tu n, (f.kind = .write → f.body = writeBody cfg tu n) ∧ (f.kind = .read → f.body = readBody cfg tu n) := by
    intro f hf
    unfold binaryFns at hf
    rcases List.mem_cons.1 hf with rfl | hf
    · exact ⟨fun _ => rfl, fun h => nomatch h⟩
    · by_cases hd : (tu.cls n.cls).hasDefaultCtor = true
      · rw [if_pos hd] at hf; rw [List.mem_singleton.1 hf]; exact ⟨fun h => (nomatch h), fun _ => rfl⟩
      · rw [if_neg hd] at hf; cases hf
  refine ⟨baseIds_defined cfg tu _, guardedFields_member _ _ _, guardedFields_member _ _ _, ?_, ?_, ?_⟩
  · obtain ⟨f, hf, hk, hq⟩ := h49.2.2.2.2 ⟨n, hn, rfl⟩
    refine ⟨f, hf, hk, hq, versionCalls cfg tu n.cls, versionOf_value cfg tu n.cls, fun v => ?_⟩
    rw [(hbody f (hnode f hf hq)).1 hk, exec_guarded v _ _ _ (compile_writeBody cfg tu n)]
    simp only [binCode]
    rw [fieldCalls_guarded, baseCalls_baseIds]
  · rw [h49.2.1]
    constructor
    · intro h; exact ⟨n, hn, rfl, h⟩
    · rintro ⟨m, hm, hq, h⟩
      rw [node_of_qname wf nm hm hn hq] at h; exact h
  · intro f hf hk hq
    refine ⟨versionCalls cfg tu n.cls, versionOf_value cfg tu n.cls, fun v => ?_⟩
    rw [(hbody f (hnode f hf hq)).2 hk, exec_guarded v _ _ _ (compile_readBody cfg tu n)]
    simp only [binCode]
    rw [fieldCalls_guarded, baseCalls_baseIds]

/-- For every translation unit with unambiguous names there is an environment using the generated code. -/
theorem linked_env_exists (cfgJ cfgB : Config) (tu : TU) (wf : tu.WellFormed) (nm : Names tu) :
    ∃ E : Env, LinkedJson cfgJ tu E ∧ LinkedBin cfgB tu E :=
  ⟨{ Demo.env with cls := fun c => some ⟨(tu.cls c).qname, jsonCode cfgJ tu c, binCode cfgB tu c, [], []⟩ },
    fun n hn => ⟨_, rfl, rfl, jsonCode_links cfgJ tu wf nm n hn⟩, fun n hn => ⟨_, rfl, rfl, binCode_links cfgB tu wf nm n hn⟩⟩

/-! ## The chain in the demo translation unit -/

theorem demo_names : Names Demo.tu where
  classes := by decide +kernel
  members := by
    intro c
    show ((Demo.cls c).fields.map FieldD.name).Nodup
    unfold Demo.cls
    split <;> decide +kernel

theorem demo_wanted : wanted Demo.json Demo.tu = [Demo.node 8 (onlyIncluded := true), Demo.node 3, Demo.node 4, Demo.node 5,
    Demo.node 6, Demo.node 10] := by
  have h := congrArg (List.map fun r => r.node) (findRelevantClasses_eq Demo.json Demo.tu demo_wf)
  rw [List.map_map] at h
  have h2 : (wanted Demo.json Demo.tu).map ((fun r => r.node) ∘ entry Demo.json Demo.tu) = wanted Demo.json Demo.tu := by
    exact List.map_id _
  rw [h2] at h
  exact h.symm.trans (by decide +kernel)

/-- `N::Root`, `N::Mid`, `N::Leaf` form a chain -/
theorem demo_chain : Chain Demo.json Demo.tu (fun i => Demo.node (i + 3)) 2 where
  wanted := by
    intro i hi
    rw [demo_wanted]
    have : i = 0 ∨ i = 1 ∨ i = 2 := by omega
    rcases this with rfl | rfl | rfl <;> simp
  bases := by
    intro i hi m hm
    rw [demo_wanted] at hm
    rw [← isDerivedFrom_iff Demo.tu demo_wf]
    have : i = 0 ∨ i = 1 ∨ i = 2 := by omega
    simp only [List.mem_cons, List.not_mem_nil, or_false] at hm
    rcases this with rfl | rfl | rfl <;> rcases hm with rfl | rfl | rfl | rfl | rfl | rfl <;>
      first
        | (refine iff_of_true (by decide +kernel) ?_
           first | exact ⟨0, by omega, rfl⟩ | exact ⟨1, by omega, rfl⟩)
        | (refine iff_of_false (by decide +kernel) ?_
           rintro ⟨j, hj, he⟩
           have h2 := congrArg Node.cls he
           have h3 := congrArg Node.onlyIncluded he
           simp [Demo.node] at h2 h3
           try omega)

/-- C45 applied: the root's member `a` occurs twice in the document of an object of the most derived class -/
example (E : Env) (hE : LinkedJson Demo.json Demo.tu E) (H : Heap) (fuel : Nat) (st : Store) (j : Json)
    (h : push E H fuel (.cls 5) (.obj st) () = .ok j ()) :
    ∃ ms, j = .obj ms ∧ (ms.filter fun m => decide (m.1.bytes = lit "a")).length = 2 :=
  C45_members_of_root_repeated Demo.json Demo.tu E demo_wf demo_names hE _ 2 demo_chain ⟨lit "a", .int .i32, false, true⟩
    (List.mem_cons_self) rfl
    (by
      intro i hi hi' g hg
      have : i = 1 ∨ i = 2 := by omega
      rcases this with rfl | rfl
      · revert g; show ∀ g ∈ (Demo.cls 4).fields, _; decide +kernel
      · revert g; show ∀ g ∈ (Demo.cls 5).fields, _; decide +kernel) H fuel st j h

/-- the code generated for the three classes, written out -/
def chainEnv : Env := { Verif.Demo.env with cls := fun c => match c with
    | 3 => some ⟨lit "N::Root", ⟨[], [⟨3, lit "a", .int .i32⟩], [⟨3, lit "a", .int .i32⟩], true, true⟩, default, [], []⟩
    | 4 => some ⟨lit "N::Mid", ⟨[3], [⟨4, lit "b", .int .i32⟩, ⟨4, lit "c", .int .i32⟩], [⟨4, lit "b", .int .i32⟩], true, true⟩, default, [], []⟩
    | 5 => some ⟨lit "N::Leaf", ⟨[3, 4], [⟨5, lit "d", .int .i32⟩], [⟨5, lit "d", .int .i32⟩], true, true⟩, default, [], []⟩
    | _ => none }

/-- and the document: `{"a":1,"a":1,"b":2,"c":3,"d":4}` -/
example : ∃ ms, push chainEnv (fun _ => none) 10 (.cls 5)
      (.obj [((3, lit "a"), .int 1), ((4, lit "b"), .int 2), ((4, lit "c"), .int 3), ((5, lit "d"), .int 4)]) () = .ok (.obj ms) () ∧
    ms.map (fun m => m.1.bytes) = [lit "a", lit "a", lit "b", lit "c", lit "d"] :=
  ⟨_, rfl, by decide +kernel⟩

end Verif.Gen
