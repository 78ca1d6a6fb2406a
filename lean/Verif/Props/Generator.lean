import Verif.Lemmas.GenBlocks
import Verif.DemoGen

/-!
# C43, C44, C46-C49: the code generators
-/

namespace Verif.Gen

open Classical

/-! ## C43, C49: functions generated -/

/-- C43/C49 (JSON): the functions defined by the generated text are, for each class code is wanted for and in declaration
order, the one for serialization and (only) if the class is default constructible the one for deserialization. -/
theorem C43_json_functions (cfg : Config) (tu : TU) (wf : tu.WellFormed) :
    (functions (generateJson cfg tu)).map (fun f => (f.kind, f.qname)) =
      (wanted cfg tu).flatMap fun n => (FnKind.push, (tu.cls n.cls).qname) ::
        (if (tu.cls n.cls).hasDefaultCtor = true then [(FnKind.pull, (tu.cls n.cls).qname)] else []) := by
  rw [functions_generateJson cfg tu wf, List.map_flatMap]
  congr 1; funext n
  unfold jsonFns
  by_cases h : (tu.cls n.cls).hasDefaultCtor = true <;> simp [h]

/-- C43/C49 (binary) -/
theorem C43_binary_functions (cfg : Config) (tu : TU) (wf : tu.WellFormed) :
    (functions (generateBinary cfg tu)).map (fun f => (f.kind, f.qname)) =
      (wanted cfg tu).flatMap fun n => (FnKind.write, (tu.cls n.cls).qname) ::
        (if (tu.cls n.cls).hasDefaultCtor = true then [(FnKind.read, (tu.cls n.cls).qname)] else []) := by
  rw [functions_generateBinary cfg tu wf, List.map_flatMap]
  congr 1; funext n
  unfold binaryFns
  by_cases h : (tu.cls n.cls).hasDefaultCtor = true <;> simp [h]

/-- `Wanted` depends on the names of the templates and the classes requested only. -/
theorem wanted_names {cfg : Config} {tu : TU} {n : Node} {a b : Str} {c : Option (List Str)} (h1 : cfg.recordsName = a)
    (h2 : cfg.adaptionName = b) (h3 : cfg.additional = c) : Wanted cfg tu n ↔ Wanted ⟨a, b, c, none⟩ tu n := by
  obtain ⟨a', b', c', v⟩ := cfg
  cases h1; cases h2; cases h3
  exact Iff.rfl

/-- C43 (JSON), with the names of the library's templates: there is code for a class iff it has a definition which is wanted, i.e.
inherits from `JsonSerializable`, is adapted by a specialization of `AdaptedJsonSerializable` or requested. -/
theorem C43_json_classes (additional : Option (List Str)) (visibility : Option Str) (tu : TU) (wf : tu.WellFormed) (q : Str) :
    (∃ f ∈ functions (generateJson (jsonConfig additional visibility) tu), f.qname = q) ↔
      ∃ n ∈ tu.nodes, (tu.cls n.cls).qname = q ∧
        Wanted ⟨lit "ReflectiveRapidJSON::JsonSerializable", lit "ReflectiveRapidJSON::AdaptedJsonSerializable", additional, none⟩ tu n := by
  have h := C43_json_functions (jsonConfig additional visibility) tu wf
  have h1 : ∀ q', (∃ f ∈ functions (generateJson (jsonConfig additional visibility) tu), f.qname = q') ↔
      ∃ x ∈ (functions (generateJson (jsonConfig additional visibility) tu)).map (fun f => (f.kind, f.qname)), x.2 = q' := by
    intro q'
    constructor
    · rintro ⟨f, hf, rfl⟩
      exact ⟨_, List.mem_map_of_mem hf, rfl⟩
    · rintro ⟨x, hx, rfl⟩
      obtain ⟨f, hf, rfl⟩ := List.mem_map.1 hx
      exact ⟨f, hf, rfl⟩
  rw [h1, h]
  constructor
  · rintro ⟨x, hx, rfl⟩
    obtain ⟨n, hn, hx⟩ := List.mem_flatMap.1 hx
    obtain ⟨hn1, hn2⟩ := List.mem_filter.1 hn
    refine ⟨n, hn1, ?_, (wanted_names rfl rfl rfl).1 (of_decide_eq_true hn2)⟩
    rcases List.mem_cons.1 hx with rfl | hx
    · rfl
    · split at hx
      · rw [List.mem_singleton.1 hx]
      · cases hx
  · rintro ⟨n, hn, rfl, hw⟩
    exact ⟨_, List.mem_flatMap.2 ⟨n, List.mem_filter.2 ⟨hn, decide_eq_true ((wanted_names rfl rfl rfl).2 hw)⟩, List.mem_cons_self ..⟩, rfl⟩

/-- C43 (binary), with the names of the library's templates -/
theorem C43_binary_classes (additional : Option (List Str)) (visibility : Option Str) (tu : TU) (wf : tu.WellFormed) (q : Str) :
    (∃ f ∈ functions (generateBinary (binaryConfig additional visibility) tu), f.qname = q) ↔
      ∃ n ∈ tu.nodes, (tu.cls n.cls).qname = q ∧
        Wanted ⟨lit "ReflectiveRapidJSON::BinarySerializable", lit "ReflectiveRapidJSON::AdaptedBinarySerializable", additional, none⟩ tu n := by
  have h := C43_binary_functions (binaryConfig additional visibility) tu wf
  have h1 : ∀ q', (∃ f ∈ functions (generateBinary (binaryConfig additional visibility) tu), f.qname = q') ↔
      ∃ x ∈ (functions (generateBinary (binaryConfig additional visibility) tu)).map (fun f => (f.kind, f.qname)), x.2 = q' := by
    intro q'
    constructor
    · rintro ⟨f, hf, rfl⟩
      exact ⟨_, List.mem_map_of_mem hf, rfl⟩
    · rintro ⟨x, hx, rfl⟩
      obtain ⟨f, hf, rfl⟩ := List.mem_map.1 hx
      exact ⟨f, hf, rfl⟩
  rw [h1, h]
  constructor
  · rintro ⟨x, hx, rfl⟩
    obtain ⟨n, hn, hx⟩ := List.mem_flatMap.1 hx
    obtain ⟨hn1, hn2⟩ := List.mem_filter.1 hn
    refine ⟨n, hn1, ?_, (wanted_names rfl rfl rfl).1 (of_decide_eq_true hn2)⟩
    rcases List.mem_cons.1 hx with rfl | hx
    · rfl
    · split at hx
      · rw [List.mem_singleton.1 hx]
      · cases hx
  · rintro ⟨n, hn, rfl, hw⟩
    exact ⟨_, List.mem_flatMap.2 ⟨n, List.mem_filter.2 ⟨hn, decide_eq_true ((wanted_names rfl rfl rfl).2 hw)⟩, List.mem_cons_self ..⟩, rfl⟩

/-- C43: no class is considered twice. -/
theorem C43_each_class_once (cfg : Config) (tu : TU) (wf : tu.WellFormed) : ((wanted cfg tu).map Node.cls).Nodup := by
  have : wanted cfg tu = (tu.nodes.filter fun n => n.complete).filter fun n => decide (Wanted cfg tu n) := by
    unfold wanted
    rw [List.filter_filter]
    apply List.filter_congr
    intro n _
    by_cases h : Wanted cfg tu n
    · simp [h, h.1]
    · simp [h]
  rw [this]
  exact (List.Sublist.map Node.cls List.filter_sublist).nodup wf.oneDefinition

theorem nodup_fns {tu : TU} (k k' : FnKind) (hk : k ≠ k') (ns : List Node) (h : (ns.map fun n => (tu.cls n.cls).qname).Nodup) :
    (ns.flatMap fun n => (k, (tu.cls n.cls).qname) ::
        (if (tu.cls n.cls).hasDefaultCtor = true then [(k', (tu.cls n.cls).qname)] else [])).Nodup := by
  induction ns with
  | nil => simp
  | cons n ns ih =>
    simp only [List.map_cons, List.nodup_cons, List.mem_map, not_exists, not_and] at h
    rw [List.flatMap_cons]
    refine List.nodup_append.2 ⟨?_, ih h.2, ?_⟩
    · by_cases hd : (tu.cls n.cls).hasDefaultCtor = true
      · simp [hd, hk]
      · simp [hd]
    · intro a ha b hb hab
      subst hab
      simp only [List.mem_flatMap] at hb
      obtain ⟨m, hm, hb⟩ := hb
      have h1 : a.2 = (tu.cls n.cls).qname := by
        rcases List.mem_cons.1 ha with rfl | ha
        · rfl
        · by_cases hd : (tu.cls n.cls).hasDefaultCtor = true
          · rw [if_pos hd] at ha; simp at ha; rw [ha]
          · rw [if_neg hd] at ha; cases ha
      have h2 : a.2 = (tu.cls m.cls).qname := by
        rcases List.mem_cons.1 hb with rfl | hb
        · rfl
        · by_cases hd : (tu.cls m.cls).hasDefaultCtor = true
          · rw [if_pos hd] at hb; simp at hb; rw [hb]
          · rw [if_neg hd] at hb; cases hb
      exact h.1 m hm (h2.symm.trans h1)

/-- C43: different classes having different names, no function is defined twice. -/
theorem C43_no_redefinition (cfg : Config) (tu : TU) (wf : tu.WellFormed)
    (names : ∀ n ∈ tu.nodes, ∀ m ∈ tu.nodes, n.complete = true → m.complete = true → (tu.cls n.cls).qname = (tu.cls m.cls).qname → n.cls = m.cls) :
    ((functions (generateJson cfg tu)).map fun f => (f.kind, f.qname)).Nodup ∧
      ((functions (generateBinary cfg tu)).map fun f => (f.kind, f.qname)).Nodup := by
  have hn : ((wanted cfg tu).map fun n => (tu.cls n.cls).qname).Nodup := by
    have h := C43_each_class_once cfg tu wf
    have hsub : ∀ n ∈ wanted cfg tu, n ∈ tu.nodes ∧ n.complete = true := by
      intro n hn
      simp only [wanted, List.mem_filter, decide_eq_true_eq] at hn
      exact ⟨hn.1, hn.2.1⟩
    rw [List.Nodup, List.pairwise_map] at h ⊢
    refine List.Pairwise.imp_of_mem (fun ha hb hab he => hab ?_) h
    exact names _ (hsub _ ha).1 _ (hsub _ hb).1 (hsub _ ha).2 (hsub _ hb).2 he
  rw [C43_json_functions cfg tu wf, C43_binary_functions cfg tu wf]
  exact ⟨nodup_fns _ _ (by decide) _ hn, nodup_fns _ _ (by decide) _ hn⟩

/-! ## C44, C46, C47: what the functions do -/

/-- the calls made when handling members -/
def memberCalls (names : List Str) : List Call := names.map .member

/-- C44/C46 (JSON): what the generated functions do, class by class: the serialization function handles exactly the wanted
direct and indirect bases, then all members which are public (all members if `push` is befriended); the deserialization
function likewise, leaving out const members. -/
theorem C46_json_bodies (cfg : Config) (tu : TU) (wf : tu.WellFormed) :
    ∃ F : Node → List Fn, functions (generateJson cfg tu) = (wanted cfg tu).flatMap F ∧ ∀ n, ∀ f ∈ F n,
      f.qname = (tu.cls n.cls).qname ∧
      (f.kind = .push → ∀ v, exec v f.body = some ((wantedBases cfg tu n.cls).map .base ++
        memberCalls (membersWith (tu.cls n.cls) fun _ m =>
          Befriends (tu.cls n.cls) (lit "ReflectiveRapidJSON::JsonReflector::push") ∨ m.isPublic = true))) ∧
      (f.kind = .pull → ∀ v, exec v f.body = some ((wantedBases cfg tu n.cls).map .base ++
        .setRecord (tu.cls n.cls).qname :: memberCalls (membersWith (tu.cls n.cls) fun _ m => m.isConst = false ∧
          (Befriends (tu.cls n.cls) (lit "ReflectiveRapidJSON::JsonReflector::pull") ∨ m.isPublic = true)) ++
        [.restoreRecord])) ∧ (f.kind = .push ∨ f.kind = .pull) := by
  refine ⟨jsonFns cfg tu, functions_generateJson cfg tu wf, fun n f hf => ?_⟩
  have hpush : pushed (tu.cls n.cls) = membersWith (tu.cls n.cls) fun _ m =>
      Befriends (tu.cls n.cls) (lit "ReflectiveRapidJSON::JsonReflector::push") ∨ m.isPublic = true := by
    rw [membersWith_fields, pushed]
    congr 2; funext m
    rw [Bool.eq_iff_iff, Bool.or_eq_true, befriends_iff]; exact (@decide_eq_true_iff _ (propDecidable _)).symm
  have hpull : pulled (tu.cls n.cls) = membersWith (tu.cls n.cls) fun _ m => m.isConst = false ∧
      (Befriends (tu.cls n.cls) (lit "ReflectiveRapidJSON::JsonReflector::pull") ∨ m.isPublic = true) := by
    rw [membersWith_fields, pulled, List.filter_filter]
    congr 2; funext m
    rw [Bool.eq_iff_iff, Bool.and_eq_true, Bool.or_eq_true, befriends_iff]
    refine Iff.trans ?_ (@decide_eq_true_iff _ (propDecidable _)).symm
    simp [and_comm]
  have e1 : ∀ v, exec v (pushBody cfg tu n) = some ((wantedBases cfg tu n.cls).map .base ++ memberCalls (pushed (tu.cls n.cls))) := by
    intro v
    rw [exec_plain]
    · unfold pushBody memberCalls
      simp only [List.filterMap_append]
      congr 1
      rw [filterMap_base _ _ fun _ => rfl]
      have hv : (if ((wantedBases cfg tu n.cls).isEmpty && (pushed (tu.cls n.cls)).isEmpty) = true then [Item.pushVoid] else []).filterMap Item.call = [] := by
        by_cases h : ((wantedBases cfg tu n.cls).isEmpty && (pushed (tu.cls n.cls)).isEmpty) = true
        · rw [if_pos h]; rfl
        · rw [if_neg h]; rfl
      rw [hv, List.filterMap_map]
      simp [Function.comp_def, Item.call]
    · intro i hi
      simp only [pushBody, List.mem_append, List.mem_map, List.mem_singleton] at hi
      rcases hi with ((⟨_, _, rfl⟩ | rfl) | ⟨_, _, rfl⟩) | hi
      · rfl
      · rfl
      · rfl
      · by_cases h : ((wantedBases cfg tu n.cls).isEmpty && (pushed (tu.cls n.cls)).isEmpty) = true
        · rw [if_pos h] at hi; simp at hi; subst hi; rfl
        · rw [if_neg h] at hi; cases hi
  have e2 : ∀ v, exec v (pullBody cfg tu n) = some ((wantedBases cfg tu n.cls).map .base ++
      .setRecord (tu.cls n.cls).qname :: memberCalls (pulled (tu.cls n.cls)) ++ [.restoreRecord]) := by
    intro v
    rw [exec_plain]
    · unfold pullBody memberCalls
      simp only [List.filterMap_append]
      congr 1
      rw [filterMap_base _ _ fun _ => rfl]
      have hv : (if ((wantedBases cfg tu n.cls).isEmpty && (pulled (tu.cls n.cls)).isEmpty) = true then [Item.pullVoid] else []).filterMap Item.call = [] := by
        by_cases h : ((wantedBases cfg tu n.cls).isEmpty && (pulled (tu.cls n.cls)).isEmpty) = true
        · rw [if_pos h]; rfl
        · rw [if_neg h]; rfl
      rw [hv, List.filterMap_map]
      simp [Function.comp_def, Item.call]
    · intro i hi
      simp only [pullBody, List.mem_append, List.mem_map, List.mem_singleton] at hi
      rcases hi with (((⟨_, _, rfl⟩ | rfl) | ⟨_, _, rfl⟩) | hi) | rfl
      · rfl
      · rfl
      · rfl
      · by_cases h : ((wantedBases cfg tu n.cls).isEmpty && (pulled (tu.cls n.cls)).isEmpty) = true
        · rw [if_pos h] at hi; simp at hi; subst hi; rfl
        · rw [if_neg h] at hi; cases hi
      · rfl
  unfold jsonFns at hf
  rcases List.mem_cons.1 hf with rfl | hf
  · exact ⟨rfl, fun _ => by rw [← hpush]; exact e1, fun h => (nomatch h), .inl rfl⟩
  · by_cases hd : (tu.cls n.cls).hasDefaultCtor = true
    · rw [if_pos hd] at hf
      rw [List.mem_singleton.1 hf]
      exact ⟨rfl, fun h => (nomatch h), fun _ => by rw [← hpull]; exact e2, .inr rfl⟩
    · rw [if_neg hd] at hf; cases hf

/-- the statement about the version in a function for the class: present if the class inherits the serializable template
(and is not relevant due to an adaption) -/
noncomputable def VersionCalls (cfg : Config) (tu : TU) (c : ClassId) (l : List Call) : Prop :=
  (Adapted cfg tu (tu.cls c).qname → l = []) ∧
  (¬ Adapted cfg tu (tu.cls c).qname → ∀ b, (tu.cls c).bases.find? (fun b => decide (b.Serializable cfg tu)) = some b →
    l = if b.typeName = [] then [] else [.version b.typeName]) ∧
  (¬ InheritsSerializable cfg tu c → l = [])

/-- C44/C46/C47 (binary): for every version in effect the functions handle exactly the wanted direct and indirect bases, the
version, and then those non-const members which are public (all if befriended) and belong to that version; conditions are
balanced (`exec` is defined). -/
theorem C47_binary_bodies (cfg : Config) (tu : TU) (wf : tu.WellFormed) :
    ∃ F : Node → List Fn, functions (generateBinary cfg tu) = (wanted cfg tu).flatMap F ∧ ∀ n, ∃ vc, VersionCalls cfg tu n.cls vc ∧
      ∀ f ∈ F n, f.qname = (tu.cls n.cls).qname ∧ (f.kind = .write ∨ f.kind = .read) ∧
      ∀ v, exec v f.body = some ((wantedBases cfg tu n.cls).map .base ++ vc ++
        memberCalls (membersWith (tu.cls n.cls) fun before m => m.isConst = false ∧
          (Befriends (tu.cls n.cls) (if f.kind = .write then lit "ReflectiveRapidJSON::BinaryReflector::writeCustomType"
              else lit "ReflectiveRapidJSON::BinaryReflector::readCustomType") ∨ m.isPublic = true) ∧
          InVersion (markers before) v)) := by
  refine ⟨binaryFns cfg tu, functions_generateBinary cfg tu wf, fun n => ⟨versionCalls cfg tu n.cls, ?_, fun f hf => ?_⟩⟩
  · unfold versionCalls versionName relevantBaseOf
    refine ⟨fun h => ?_, fun h b hb => ?_, fun h => ?_⟩
    · rw [if_pos h]; rfl
    · rw [if_neg h]
      simp only [hb, Option.map_some, Option.getD_some, List.isEmpty_iff]
    · by_cases ha : Adapted cfg tu (tu.cls n.cls).qname
      · rw [if_pos ha]; rfl
      · rw [if_neg ha]
        have : (tu.cls n.cls).bases.find? (fun b => decide (b.Serializable cfg tu)) = none := by
          rw [List.find?_eq_none]
          intro b hb hs
          exact h ⟨b, hb, by simpa using hs⟩
        rw [this]; rfl
  · unfold binaryFns at hf
    rcases List.mem_cons.1 hf with rfl | hf
    · exact ⟨rfl, .inl rfl, fun v => exec_writeBody cfg tu n v⟩
    · by_cases hd : (tu.cls n.cls).hasDefaultCtor = true
      · rw [if_pos hd] at hf
        rw [List.mem_singleton.1 hf]
        exact ⟨rfl, .inr rfl, fun v => exec_readBody cfg tu n v⟩
      · rw [if_neg hd] at hf; cases hf

/-- C46/C47 (binary): reader and writer of a class agree for every version, provided both are befriended or none. -/
theorem C46_binary_reader_writer_agree (cfg : Config) (tu : TU) (wf : tu.WellFormed)
    (friends : ∀ n ∈ wanted cfg tu, Befriends (tu.cls n.cls) (lit "ReflectiveRapidJSON::BinaryReflector::writeCustomType")
      ↔ Befriends (tu.cls n.cls) (lit "ReflectiveRapidJSON::BinaryReflector::readCustomType")) :
    ∃ F : Node → List Fn, functions (generateBinary cfg tu) = (wanted cfg tu).flatMap F ∧
      ∀ n ∈ wanted cfg tu, ∀ f ∈ F n, ∀ g ∈ F n, ∀ v, exec v f.body = exec v g.body ∧ (exec v f.body).isSome = true := by
  obtain ⟨F, hF, h⟩ := C47_binary_bodies cfg tu wf
  refine ⟨F, hF, fun n hn f hf g hg v => ?_⟩
  obtain ⟨vc, _, h⟩ := h n
  have hfr := propext (friends n hn)
  have hb : ∀ k : FnKind, Befriends (tu.cls n.cls) (if k = .write then lit "ReflectiveRapidJSON::BinaryReflector::writeCustomType"
      else lit "ReflectiveRapidJSON::BinaryReflector::readCustomType")
      = Befriends (tu.cls n.cls) (lit "ReflectiveRapidJSON::BinaryReflector::readCustomType") := by
    intro k
    by_cases hk : k = .write
    · rw [if_pos hk, hfr]
    · rw [if_neg hk]
  rw [(h f hf).2.2 v, (h g hg).2.2 v, hb, hb]
  exact ⟨rfl, rfl⟩

/-! ### Bases -/

theorem fnsBases_json (cfg : Config) (tu : TU) (wf : tu.WellFormed) {f : Fn} (hf : f ∈ functions (generateJson cfg tu)) :
    ∃ n ∈ wanted cfg tu, f.qname = (tu.cls n.cls).qname ∧ ∀ v, ∃ own, exec v f.body = some ((wantedBases cfg tu n.cls).map .base ++ own) ∧
      ∀ q, Call.base q ∉ own := by
  obtain ⟨F, hF, h⟩ := C46_json_bodies cfg tu wf
  rw [hF, List.mem_flatMap] at hf
  obtain ⟨n, hn, hf⟩ := hf
  obtain ⟨h1, h2, h3, h4⟩ := h n f hf
  refine ⟨n, hn, h1, fun v => ?_⟩
  rcases h4 with h4 | h4
  · refine ⟨_, h2 h4 v, fun q hq => ?_⟩
    simp [memberCalls] at hq
  · refine ⟨_, (h3 h4 v).trans (by rw [List.append_assoc]), fun q hq => ?_⟩
    simp [memberCalls] at hq

theorem versionCalls_noBase {cfg : Config} {tu : TU} {c : ClassId} {l : List Call} (h : VersionCalls cfg tu c l) : ∀ q, Call.base q ∉ l := by
  intro q hq
  obtain ⟨h1, h2, h3⟩ := h
  by_cases ha : Adapted cfg tu (tu.cls c).qname
  · rw [h1 ha] at hq; cases hq
  · by_cases hi : InheritsSerializable cfg tu c
    · obtain ⟨b, hb, hs⟩ := hi
      cases hfd : (tu.cls c).bases.find? (fun b => decide (b.Serializable cfg tu)) with
      | none => exact List.find?_eq_none.1 hfd b hb (by simpa using hs)
      | some b' =>
        rw [h2 ha b' hfd] at hq
        by_cases ht : b'.typeName = []
        · rw [if_pos ht] at hq; cases hq
        · rw [if_neg ht] at hq; simp at hq
    · rw [h3 hi] at hq; cases hq

theorem fnsBases_binary (cfg : Config) (tu : TU) (wf : tu.WellFormed) {f : Fn} (hf : f ∈ functions (generateBinary cfg tu)) :
    ∃ n ∈ wanted cfg tu, f.qname = (tu.cls n.cls).qname ∧ ∀ v, ∃ own, exec v f.body = some ((wantedBases cfg tu n.cls).map .base ++ own) ∧
      ∀ q, Call.base q ∉ own := by
  obtain ⟨F, hF, h⟩ := C47_binary_bodies cfg tu wf
  rw [hF, List.mem_flatMap] at hf
  obtain ⟨n, hn, hf⟩ := hf
  obtain ⟨vc, hvc, h⟩ := h n
  obtain ⟨h1, _, h2⟩ := h f hf
  refine ⟨n, hn, h1, fun v => ⟨_, (h2 v).trans (by rw [List.append_assoc]), fun q hq => ?_⟩⟩
  rcases List.mem_append.1 hq with hq | hq
  · exact versionCalls_noBase hvc q hq
  · simp [memberCalls] at hq

/-- C44: every generated function first handles the bases, exactly those (direct or indirect) base classes of the class
which code is generated for in the same run and in their declaration order, and then only the class' own things. -/
theorem C44_bases_first (cfg : Config) (tu : TU) (wf : tu.WellFormed) (f : Fn)
    (hf : f ∈ functions (generateJson cfg tu) ∨ f ∈ functions (generateBinary cfg tu)) :
    ∃ n ∈ wanted cfg tu, f.qname = (tu.cls n.cls).qname ∧ ∀ v, ∃ own,
      exec v f.body = some (((wanted cfg tu).filter fun b => decide (tu.Derived n.cls b.cls)).map
        (fun b => Call.base (tu.cls b.cls).qname) ++ own) ∧ ∀ q, Call.base q ∉ own := by
  obtain ⟨n, hn, hq, h⟩ : ∃ n ∈ wanted cfg tu, f.qname = (tu.cls n.cls).qname ∧ ∀ v, ∃ own, exec v f.body = some ((wantedBases cfg tu n.cls).map .base ++ own) ∧
      ∀ q, Call.base q ∉ own := by
    rcases hf with hf | hf
    · exact fnsBases_json cfg tu wf hf
    · exact fnsBases_binary cfg tu wf hf
  refine ⟨n, hn, hq, fun v => ?_⟩
  obtain ⟨own, h, h'⟩ := h v
  refine ⟨own, ?_, h'⟩
  rw [h, wantedBases, List.map_map]
  rfl

/-- C44: a class the definition of which is only included (and not adapted by the main file) is not serialized as base of any
class, even if it inherits from the serializable template. -/
theorem C44_included_bases_left_out (cfg : Config) (tu : TU) (wf : tu.WellFormed) (f : Fn)
    (hf : f ∈ functions (generateJson cfg tu) ∨ f ∈ functions (generateBinary cfg tu)) (d : Node)
    (hinc : d.onlyIncluded = true) (hna : ¬ Adapted cfg tu (tu.cls d.cls).qname)
    (unique : ∀ m ∈ tu.nodes, (tu.cls m.cls).qname = (tu.cls d.cls).qname → m = d) (v : Nat) :
    ∃ calls, exec v f.body = some calls ∧ Call.base (tu.cls d.cls).qname ∉ calls := by
  obtain ⟨n, hn, hq, h⟩ := C44_bases_first cfg tu wf f hf
  obtain ⟨own, h, ho⟩ := h v
  refine ⟨_, h, fun hm => ?_⟩
  rcases List.mem_append.1 hm with hm | hm
  · simp only [List.mem_map, List.mem_filter, wanted, decide_eq_true_eq, Call.base.injEq] at hm
    obtain ⟨m, ⟨⟨hm, hw⟩, _⟩, he⟩ := hm
    obtain rfl := unique m hm he
    rcases hw.2.2 with hw | hw
    · exact hna hw
    · rw [hinc] at hw; exact nomatch hw.1
  · exact ho _ hm

/-! ## C48: output as a whole -/

theorem generate_lvl {cfg : Config} {tu : TU} {g : Relevant → List Item} (wf : TU.WellFormed tu)
    (h : ∀ n, Lvl 0 0 (renderAll (g (entry cfg tu n)))) : Lvl 0 0 (renderAll ((findRelevantClasses cfg tu).flatMap g)) := by
  rw [findRelevantClasses_eq cfg tu wf]
  refine flatMap_lvl _ _ fun r hr => ?_
  obtain ⟨n, _, rfl⟩ := List.mem_map.1 hr
  exact h n

/-- C48 (JSON): no output at all if code is wanted for no class; otherwise the output is one namespace block the content of
which is balanced. -/
theorem C48_json_output (cfg : Config) (tu : TU) (wf : tu.WellFormed) :
    (wanted cfg tu = [] → renderAll (generateJson cfg tu) = []) ∧
    (wanted cfg tu ≠ [] → ∃ content, renderAll (generateJson cfg tu) =
        lit "namespace ReflectiveRapidJSON {\nnamespace JsonReflector {\n\n" ++ content
          ++ lit "} // namespace JsonReflector\n} // namespace ReflectiveRapidJSON\n" ∧
      (NamesOk cfg tu → braces 0 content = some 0)) := by
  have hE : (findRelevantClasses cfg tu).isEmpty = true ↔ wanted cfg tu = [] := by
    rw [findRelevantClasses_eq cfg tu wf]; simp
  unfold generateJson
  simp only
  refine ⟨fun h => by rw [if_pos (hE.2 h)]; rfl, fun h => ?_⟩
  rw [if_neg fun h' => h (hE.1 h')]
  refine ⟨renderAll ((findRelevantClasses cfg tu).flatMap (jsonClass cfg tu (findRelevantClasses cfg tu))), ?_, fun hn => ?_⟩
  · rw [renderAll_append, renderAll_append]
    congr 1
  · exact generate_lvl wf (fun n => jsonClass_lvl wf hn n) 0

/-- C48 (binary) -/
theorem C48_binary_output (cfg : Config) (tu : TU) (wf : tu.WellFormed) :
    (wanted cfg tu = [] → renderAll (generateBinary cfg tu) = []) ∧
    (wanted cfg tu ≠ [] → ∃ content, renderAll (generateBinary cfg tu) =
        lit "namespace ReflectiveRapidJSON {\nnamespace BinaryReflector {\n\n" ++ content
          ++ lit "} // namespace BinaryReflector\n} // namespace ReflectiveRapidJSON\n" ∧
      (NamesOk cfg tu → braces 0 content = some 0)) := by
  have hE : (findRelevantClasses cfg tu).isEmpty = true ↔ wanted cfg tu = [] := by
    rw [findRelevantClasses_eq cfg tu wf]; simp
  unfold generateBinary
  simp only
  refine ⟨fun h => by rw [if_pos (hE.2 h)]; rfl, fun h => ?_⟩
  rw [if_neg fun h' => h (hE.1 h')]
  refine ⟨renderAll ((findRelevantClasses cfg tu).flatMap (binaryClass cfg tu (findRelevantClasses cfg tu))), ?_, fun hn => ?_⟩
  · rw [renderAll_append, renderAll_append]
    congr 1
  · exact generate_lvl wf (fun n => binaryClass_lvl wf hn n) 0

/-! ## C49 -/

/-- C49: a deserialization function for a name is generated iff code is wanted for a default constructible class of that name;
a serialization function iff code is wanted for a class of that name. -/
theorem C49_deserialization_iff_default_constructible (cfg : Config) (tu : TU) (wf : tu.WellFormed) (q : Str) :
    ((∃ f ∈ functions (generateJson cfg tu), f.kind = .pull ∧ f.qname = q) ↔
      ∃ n ∈ wanted cfg tu, (tu.cls n.cls).qname = q ∧ (tu.cls n.cls).hasDefaultCtor = true) ∧
    ((∃ f ∈ functions (generateBinary cfg tu), f.kind = .read ∧ f.qname = q) ↔
      ∃ n ∈ wanted cfg tu, (tu.cls n.cls).qname = q ∧ (tu.cls n.cls).hasDefaultCtor = true) ∧
    ((∃ f ∈ functions (generateJson cfg tu), f.kind = .push ∧ f.qname = q) ↔ ∃ n ∈ wanted cfg tu, (tu.cls n.cls).qname = q) ∧
    ((∃ f ∈ functions (generateBinary cfg tu), f.kind = .write ∧ f.qname = q) ↔ ∃ n ∈ wanted cfg tu, (tu.cls n.cls).qname = q) := by
  have key : ∀ (fs : List Fn) (l : List (FnKind × Str)), fs.map (fun f => (f.kind, f.qname)) = l → ∀ k,
      (∃ f ∈ fs, f.kind = k ∧ f.qname = q) ↔ (k, q) ∈ l := by
    intro fs l h k
    rw [← h, List.mem_map]
    simp
  have mem : ∀ (k k' x : FnKind), k ≠ k' → ((x, q) ∈ (wanted cfg tu).flatMap (fun n => (k, (tu.cls n.cls).qname) ::
        (if (tu.cls n.cls).hasDefaultCtor = true then [(k', (tu.cls n.cls).qname)] else [])) ↔
      ∃ n ∈ wanted cfg tu, (tu.cls n.cls).qname = q ∧ (x = k ∨ x = k' ∧ (tu.cls n.cls).hasDefaultCtor = true)) := by
    intro k k' x _
    rw [List.mem_flatMap]
    constructor
    · rintro ⟨n, hn, h⟩
      refine ⟨n, hn, ?_⟩
      rcases List.mem_cons.1 h with h | h
      · simp at h; exact ⟨h.2.symm, .inl h.1⟩
      · by_cases hd : (tu.cls n.cls).hasDefaultCtor = true
        · rw [if_pos hd] at h; simp at h; exact ⟨h.2.symm, .inr ⟨h.1, hd⟩⟩
        · rw [if_neg hd] at h; cases h
    · rintro ⟨n, hn, rfl, rfl | ⟨rfl, hd⟩⟩
      · exact ⟨n, hn, by simp⟩
      · exact ⟨n, hn, by simp [hd]⟩
  refine ⟨?_, ?_, ?_, ?_⟩
  · rw [key _ _ (C43_json_functions cfg tu wf), mem _ _ _ (by decide)]; simp
  · rw [key _ _ (C43_binary_functions cfg tu wf), mem _ _ _ (by decide)]; simp
  · rw [key _ _ (C43_json_functions cfg tu wf), mem _ _ _ (by decide)]; simp
  · rw [key _ _ (C43_binary_functions cfg tu wf), mem _ _ _ (by decide)]; simp

end Verif.Gen
