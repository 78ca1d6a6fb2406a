import Verif.Props.Generator
import Verif.Spec.GenLink
import Mathlib.Data.List.Nodup

/-!
# Generated code as used by the reflectors
-/

namespace Verif.Gen

open Classical

theorem map_eq_inj {α β} {f : α → β} {l l' : List α} (h : l.map f = l'.map f) (inj : ∀ a ∈ l, ∀ b ∈ l', f a = f b → a = b) : l = l' := by
  induction l generalizing l' with
  | nil =>
    cases l' with
    | nil => rfl
    | cons b l' => cases h
  | cons a l ih =>
    cases l' with
    | nil => cases h
    | cons b l' =>
      simp only [List.map_cons, List.cons.injEq] at h
      rw [inj a (by simp) b (by simp) h.1, ih h.2 fun x hx y hy => inj x (by simp [hx]) y (by simp [hy])]

theorem bases_split {as bs : List Str} {xs ys : List Call} (h : as.map Call.base ++ xs = bs.map Call.base ++ ys)
    (hx : ∀ q, Call.base q ∉ xs) (hy : ∀ q, Call.base q ∉ ys) : as = bs ∧ xs = ys := by
  induction as generalizing bs with
  | nil =>
    cases bs with
    | nil => exact ⟨rfl, h⟩
    | cons b bs =>
      simp only [List.map_nil, List.nil_append, List.map_cons, List.cons_append] at h
      exact absurd (h ▸ List.mem_cons_self) (hx b)
  | cons a as ih =>
    cases bs with
    | nil =>
      simp only [List.map_nil, List.nil_append, List.map_cons, List.cons_append] at h
      exact absurd (h ▸ List.mem_cons_self) (hy a)
    | cons b bs =>
      simp only [List.map_cons, List.cons_append, List.cons.injEq, Call.base.injEq] at h
      obtain ⟨i1, i2⟩ := ih h.2
      exact ⟨by rw [h.1, i1], i2⟩

theorem fieldCalls_noBase (fs : List Field) : ∀ q, Call.base q ∉ fieldCalls fs := by
  intro q h; simp [fieldCalls] at h

theorem memberCalls_noBase (ns : List Str) : ∀ q, Call.base q ∉ memberCalls ns := by
  intro q h; simp [memberCalls] at h

theorem baseCalls_eq (tu : TU) (bs : List ClassId) : baseCalls tu bs = (bs.map fun b => (tu.cls b).qname).map .base := by
  simp [baseCalls]

/-- the bases considered, as ids -/
noncomputable def baseIds (cfg : Config) (tu : TU) (c : ClassId) : List ClassId :=
  ((wanted cfg tu).filter fun n => decide (tu.Derived c n.cls)).map Node.cls

theorem wantedBases_ids (cfg : Config) (tu : TU) (c : ClassId) : wantedBases cfg tu c = (baseIds cfg tu c).map fun b => (tu.cls b).qname := by
  simp [wantedBases, baseIds]

theorem mem_wanted {cfg : Config} {tu : TU} {n : Node} (h : n ∈ wanted cfg tu) : n ∈ tu.nodes ∧ n.complete = true := by
  simp only [wanted, List.mem_filter, decide_eq_true_eq] at h
  exact ⟨h.1, h.2.1⟩

theorem mem_baseIds {cfg : Config} {tu : TU} {c b : ClassId} : b ∈ baseIds cfg tu c ↔ ∃ n ∈ wanted cfg tu, n.cls = b ∧ tu.Derived c b := by
  simp only [baseIds, List.mem_map, List.mem_filter, decide_eq_true_eq]
  constructor
  · rintro ⟨n, ⟨h1, h2⟩, rfl⟩; exact ⟨n, h1, rfl, h2⟩
  · rintro ⟨n, h1, rfl, h2⟩; exact ⟨n, ⟨h1, h2⟩, rfl⟩

theorem baseIds_nodup (cfg : Config) (tu : TU) (wf : tu.WellFormed) (c : ClassId) : (baseIds cfg tu c).Nodup :=
  (List.Sublist.map Node.cls List.filter_sublist).nodup (C43_each_class_once cfg tu wf)

theorem ids_of_names {cfg : Config} {tu : TU} (nm : Names tu) {c : ClassId} {bs : List ClassId} (hd : ∀ b ∈ bs, IsDefined tu b)
    (h : bs.map (fun b => (tu.cls b).qname) = (baseIds cfg tu c).map fun b => (tu.cls b).qname) : bs = baseIds cfg tu c := by
  refine map_eq_inj h fun a ha b hb he => ?_
  obtain ⟨n, hn, hc, rfl⟩ := hd a ha
  obtain ⟨m, hm, rfl, _⟩ := mem_baseIds.1 hb
  exact nm.classes n hn m (mem_wanted hm).1 hc (mem_wanted hm).2 he

theorem field_inj {tu : TU} (nm : Names tu) {c : ClassId} {f g : Field} (hf : IsMember tu c f) (hg : IsMember tu c g)
    (h : f.name = g.name) : f = g := by
  obtain ⟨a, ha, rfl⟩ := hf
  obtain ⟨b, hb, rfl⟩ := hg
  rw [List.inj_on_of_nodup_map (nm.members c) ha hb h]

theorem fields_of_names {tu : TU} (nm : Names tu) {c : ClassId} {fs gs : List Field} (hf : ∀ f ∈ fs, IsMember tu c f)
    (hg : ∀ f ∈ gs, IsMember tu c f) (h : fieldCalls fs = fieldCalls gs) : fs = gs := by
  refine map_eq_inj h fun a ha b hb he => ?_
  simp only [Call.member.injEq] at he
  exact field_inj nm (hf a ha) (hg b hb) he

/-- members satisfying a condition -/
noncomputable def fieldsWith (tu : TU) (c : ClassId) (p : FieldD → Prop) : List Field :=
  ((tu.cls c).fields.filter fun f => decide (p f)).map (fieldOf c)

theorem mem_fieldsWith {tu : TU} {c : ClassId} {p : FieldD → Prop} {f : Field} :
    f ∈ fieldsWith tu c p ↔ ∃ fd ∈ (tu.cls c).fields, p fd ∧ f = fieldOf c fd := by
  simp only [fieldsWith, List.mem_map, List.mem_filter, decide_eq_true_eq]
  constructor
  · rintro ⟨fd, ⟨h1, h2⟩, rfl⟩; exact ⟨fd, h1, h2, rfl⟩
  · rintro ⟨fd, h1, h2, rfl⟩; exact ⟨fd, ⟨h1, h2⟩, rfl⟩

/-- members written to JSON -/
noncomputable def pushedFields (tu : TU) (c : ClassId) : List Field := fieldsWith tu c fun f =>
  Befriends (tu.cls c) (lit "ReflectiveRapidJSON::JsonReflector::push") ∨ f.isPublic = true

/-- members read from JSON -/
noncomputable def pulledFields (tu : TU) (c : ClassId) : List Field := fieldsWith tu c fun f =>
  f.isConst = false ∧ (Befriends (tu.cls c) (lit "ReflectiveRapidJSON::JsonReflector::pull") ∨ f.isPublic = true)

theorem fieldsWith_member {tu : TU} {c : ClassId} {p : FieldD → Prop} : ∀ f ∈ fieldsWith tu c p, IsMember tu c f := by
  intro f hf
  obtain ⟨fd, h, _, rfl⟩ := mem_fieldsWith.1 hf
  exact ⟨fd, h, rfl⟩

theorem fieldCalls_of (c : ClassId) (p : FieldD → Prop) (tu : TU) :
    memberCalls (membersWith (tu.cls c) fun _ => p) = fieldCalls (fieldsWith tu c p) := by
  rw [membersWith_fields]
  simp [memberCalls, fieldCalls, fieldOf, fieldsWith]

theorem node_of_qname {cfg : Config} {tu : TU} (wf : tu.WellFormed) (nm : Names tu) {n m : Node} (hn : n ∈ wanted cfg tu)
    (hm : m ∈ wanted cfg tu) (h : (tu.cls n.cls).qname = (tu.cls m.cls).qname) : n = m :=
  List.inj_on_of_nodup_map (C43_each_class_once cfg tu wf) hn hm
    (nm.classes _ (mem_wanted hn).1 _ (mem_wanted hm).1 (mem_wanted hn).2 (mem_wanted hm).2 h)

/-- the linked JSON code is determined -/
theorem linksJson_eq {cfg : Config} {tu : TU} (wf : tu.WellFormed) (nm : Names tu) {n : Node} (hn : n ∈ wanted cfg tu)
    {code : JsonCode} (h : LinksJson tu (functions (generateJson cfg tu)) n.cls code) :
    code.bases = baseIds cfg tu n.cls ∧ code.pushFields = pushedFields tu n.cls ∧ code.pullable = (tu.cls n.cls).hasDefaultCtor ∧
      (code.pullable = true → code.pullFields = pulledFields tu n.cls) := by
  obtain ⟨F, hF, hb⟩ := C46_json_bodies cfg tu wf
  have hnode : ∀ f ∈ functions (generateJson cfg tu), f.qname = (tu.cls n.cls).qname → f ∈ F n := by
    intro f hf hq
    rw [hF, List.mem_flatMap] at hf
    obtain ⟨m, hm, hf⟩ := hf
    have := node_of_qname wf nm hm hn ((hb m f hf).1.symm.trans hq)
    rwa [← this]
  obtain ⟨f, hf, hk, hq, he⟩ := h.push
  have h1 := (hb n f (hnode f hf hq)).2.1 hk 0
  rw [h1] at he
  have he := Option.some.inj he
  rw [baseCalls_eq] at he
  obtain ⟨e1, e2⟩ := bases_split he (memberCalls_noBase _) (fieldCalls_noBase _)
  have hp : code.pullable = (tu.cls n.cls).hasDefaultCtor := by
    rw [Bool.eq_iff_iff, h.pullable]
    rw [(C49_deserialization_iff_default_constructible cfg tu wf (tu.cls n.cls).qname).1]
    constructor
    · rintro ⟨m, hm, hq, hd⟩
      rwa [← node_of_qname wf nm hm hn hq]
    · intro hd; exact ⟨n, hn, rfl, hd⟩
  refine ⟨?_, ?_, hp, fun hpull => ?_⟩
  · exact ids_of_names nm h.bases (by rw [← e1, wantedBases_ids])
  · rw [fieldCalls_of] at e2
    exact (fields_of_names nm fieldsWith_member h.pushMembers e2).symm
  · obtain ⟨g, hg, hgk, hgq⟩ := h.pullable.1 hpull
    have h2 := h.pull g hg hgk hgq
    have h3 := (hb n g (hnode g hg hgq)).2.2.1 hgk 0
    rw [h2, baseCalls_eq, List.append_assoc, List.append_assoc] at h3
    obtain ⟨_, e4⟩ := bases_split (Option.some.inj h3) (by simp [fieldCalls]) (by simp [memberCalls])
    simp only [List.cons_append, List.cons.injEq, true_and] at e4
    have e4 := List.append_cancel_right e4
    rw [fieldCalls_of] at e4
    exact fields_of_names nm h.pullMembers fieldsWith_member e4

/-- members handled by binary code for the given version -/
noncomputable def binNames (tu : TU) (c : ClassId) (v : Nat) : List Str :=
  membersWith (tu.cls c) fun before m => m.isConst = false ∧
    (Befriends (tu.cls c) (lit "ReflectiveRapidJSON::BinaryReflector::readCustomType") ∨ m.isPublic = true) ∧
    InVersion (markers before) v

theorem versionCalls_split {vc vc' : List Call} {ns ns' : List Str} (h : vc ++ memberCalls ns = vc' ++ memberCalls ns')
    (hv : ∀ x, Call.member x ∉ vc) (hv' : ∀ x, Call.member x ∉ vc') : vc = vc' ∧ ns = ns' := by
  induction vc generalizing vc' with
  | nil =>
    cases vc' with
    | nil => exact ⟨rfl, (List.map_inj_right fun _ _ h => Call.member.inj h).1 h⟩
    | cons c vc' =>
      simp only [List.nil_append, List.cons_append] at h
      cases ns with
      | nil => cases h
      | cons a ns =>
        simp only [memberCalls, List.map_cons, List.cons.injEq] at h
        exact absurd (h.1 ▸ List.mem_cons_self) (hv' a)
  | cons c vc ih =>
    cases vc' with
    | nil =>
      simp only [List.nil_append, List.cons_append] at h
      cases ns' with
      | nil => cases h
      | cons a ns =>
        simp only [memberCalls, List.map_cons, List.cons.injEq] at h
        exact absurd (h.1 ▸ List.mem_cons_self) (hv a)
    | cons c' vc' =>
      simp only [List.cons_append, List.cons.injEq] at h
      obtain ⟨i1, i2⟩ := ih h.2 (fun x hx => hv x (by simp [hx])) (fun x hx => hv' x (by simp [hx]))
      exact ⟨by rw [h.1, i1], i2⟩

theorem versionOf_noBase {tu : TU} {c : ClassId} {v : Option Nat} {vc : List Call} (h : VersionOf tu c v vc) :
    (∀ q, Call.base q ∉ vc) ∧ ∀ x, Call.member x ∉ vc := by
  rcases h with ⟨rfl, _⟩ | ⟨b, _, rfl, _⟩ <;> simp

theorem specVersion_noMember {cfg : Config} {tu : TU} {c : ClassId} {l : List Call} (h : VersionCalls cfg tu c l) : ∀ x, Call.member x ∉ l := by
  intro q hq
  obtain ⟨h1, h2, h3⟩ := h
  by_cases ha : Adapted cfg tu (tu.cls c).qname
  · rw [h1 ha] at hq; cases hq
  · by_cases hi : InheritsSerializable cfg tu c
    · obtain ⟨b, hb, hs⟩ := hi
      cases hfd : (tu.cls c).bases.find? (fun b => decide (b.Serializable cfg tu)) with
      | none => exact List.find?_eq_none.1 hfd b hb (by simpa using hs)
      | some b' =>
        rw [h2 ha b' hfd] at hq
        by_cases ht : b'.typeName = []
        · rw [if_pos ht] at hq; cases hq
        · rw [if_neg ht] at hq; simp at hq
    · rw [h3 hi] at hq; cases hq

theorem active_member {tu : TU} {c : ClassId} {fs : List (Guard × Field)} (h : ∀ gf ∈ fs, IsMember tu c gf.2) (v : Nat) :
    ∀ f ∈ activeFields v fs, IsMember tu c f := by
  intro f hf
  simp only [activeFields, List.mem_map, List.mem_filter] at hf
  obtain ⟨gf, ⟨hgf, _⟩, rfl⟩ := hf
  exact h gf hgf

/-- the linked binary code is determined up to the form of the version conditions -/
theorem linksBin_eq {cfg : Config} {tu : TU} (wf : tu.WellFormed) (nm : Names tu) {n : Node} (hn : n ∈ wanted cfg tu)
    (friends : Befriends (tu.cls n.cls) (lit "ReflectiveRapidJSON::BinaryReflector::writeCustomType")
      ↔ Befriends (tu.cls n.cls) (lit "ReflectiveRapidJSON::BinaryReflector::readCustomType"))
    {code : BinCode} (h : LinksBin tu (functions (generateBinary cfg tu)) n.cls code) :
    code.bases = baseIds cfg tu n.cls ∧ code.readable = (tu.cls n.cls).hasDefaultCtor ∧
      (∀ v, (activeFields v code.writeFields).map Field.name = binNames tu n.cls v) ∧
      (code.readable = true → ∀ v, activeFields v code.readFields = activeFields v code.writeFields) := by
  obtain ⟨F, hF, hb⟩ := C47_binary_bodies cfg tu wf
  have hnode : ∀ f ∈ functions (generateBinary cfg tu), f.qname = (tu.cls n.cls).qname → f ∈ F n := by
    intro f hf hq
    rw [hF, List.mem_flatMap] at hf
    obtain ⟨m, hm, hf⟩ := hf
    obtain ⟨_, _, hbm⟩ := hb m
    have := node_of_qname wf nm hm hn ((hbm f hf).1.symm.trans hq)
    rwa [← this]
  obtain ⟨vc, hvc, hb⟩ := hb n
  have hnames : ∀ k : FnKind, ∀ v, (membersWith (tu.cls n.cls) fun before m => m.isConst = false ∧
          (Befriends (tu.cls n.cls) (if k = .write then lit "ReflectiveRapidJSON::BinaryReflector::writeCustomType"
              else lit "ReflectiveRapidJSON::BinaryReflector::readCustomType") ∨ m.isPublic = true) ∧
          InVersion (markers before) v) = binNames tu n.cls v := by
    intro k v
    unfold binNames
    by_cases hk : k = .write
    · rw [if_pos hk, propext friends]
    · rw [if_neg hk]
  have comp : ∀ f ∈ functions (generateBinary cfg tu), f.qname = (tu.cls n.cls).qname → ∀ (fs : List (Guard × Field)) vc',
      VersionOf tu n.cls code.version vc' →
      (∀ v, exec v f.body = some (baseCalls tu code.bases ++ vc' ++ fieldCalls (activeFields v fs))) →
      code.bases.map (fun b => (tu.cls b).qname) = wantedBases cfg tu n.cls ∧
        ∀ v, (activeFields v fs).map Field.name = binNames tu n.cls v := by
    intro f hf hq fs vc' hvc' he
    have key : ∀ v, code.bases.map (fun b => (tu.cls b).qname) = wantedBases cfg tu n.cls ∧ (activeFields v fs).map Field.name = binNames tu n.cls v := by
      intro v
      have h1 := (hb f (hnode f hf hq)).2.2 v
      rw [he v, hnames, baseCalls_eq, List.append_assoc, List.append_assoc] at h1
      have hfc : fieldCalls (activeFields v fs) = memberCalls ((activeFields v fs).map Field.name) := by
        simp [fieldCalls, memberCalls]
      rw [hfc] at h1
      obtain ⟨e1, e2⟩ := bases_split (Option.some.inj h1)
        (fun q hq => (List.mem_append.1 hq).elim ((versionOf_noBase hvc').1 q) (memberCalls_noBase _ q))
        (fun q hq => (List.mem_append.1 hq).elim (versionCalls_noBase hvc q) (memberCalls_noBase _ q))
      obtain ⟨_, e3⟩ := versionCalls_split e2 (versionOf_noBase hvc').2 (specVersion_noMember hvc)
      exact ⟨e1, e3⟩
    exact ⟨(key 0).1, fun v => (key v).2⟩
  obtain ⟨f, hf, hk, hq, vc', hv', he⟩ := h.write
  obtain ⟨hbases, hwr⟩ := comp f hf hq code.writeFields vc' hv' he
  have hp : code.readable = (tu.cls n.cls).hasDefaultCtor := by
    rw [Bool.eq_iff_iff, h.readable]
    rw [(C49_deserialization_iff_default_constructible cfg tu wf (tu.cls n.cls).qname).2.1]
    constructor
    · rintro ⟨m, hm, hq, hd⟩
      rwa [← node_of_qname wf nm hm hn hq]
    · intro hd; exact ⟨n, hn, rfl, hd⟩
  refine ⟨ids_of_names nm h.bases (by rw [hbases, wantedBases_ids]), hp, hwr, fun hr v => ?_⟩
  obtain ⟨g, hg, hgk, hgq⟩ := h.readable.1 hr
  obtain ⟨vc2, hv2, he2⟩ := h.read g hg hgk hgq
  obtain ⟨_, hrd⟩ := comp g hg hgq code.readFields vc2 hv2 he2
  refine map_eq_inj ((hrd v).trans (hwr v).symm) fun a ha b hb he => ?_
  exact field_inj nm (active_member h.readMembers v a ha) (active_member h.writeMembers v b hb) he

end Verif.Gen
