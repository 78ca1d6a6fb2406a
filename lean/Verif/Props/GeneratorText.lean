import Verif.Lemmas.GenCppDefs
import Verif.Props.GeneratorExamples

/-!
# C59: what the generated text means as C++ code
-/

namespace Verif.Gen

open Classical Cpp

/-! ## Specification -/

/-- a statement which is executed for every version -/
def unconditional (a : Act) : Cond × Act := (Cpp.always, a)

/-- what the functions for JSON do: (de)serialize the bases, then the members under their names -/
noncomputable def jsonDefs (cfg : Config) (tu : TU) (n : Node) : List Def :=
  let c := tu.cls n.cls
  ⟨.push, c.qname, ((wantedBases cfg tu n.cls).map Act.base ++
    (membersWith c fun _ m => Befriends c (lit "ReflectiveRapidJSON::JsonReflector::push") ∨ m.isPublic = true).map
      fun m => Act.member m m).map unconditional⟩ ::
  (if c.hasDefaultCtor = true then [⟨.pull, c.qname, ((wantedBases cfg tu n.cls).map Act.base ++ [Act.setRecord c.qname] ++
    ((membersWith c fun _ m => m.isConst = false ∧
      (Befriends c (lit "ReflectiveRapidJSON::JsonReflector::pull") ∨ m.isPublic = true)).map fun m => Act.member m m) ++
    [Act.restoreRecord]).map unconditional⟩] else [])

/-- what is done about the version: nothing unless the class inherits (an instantiation of) the serializable template itself -/
noncomputable def versionActs (cfg : Config) (tu : TU) (c : ClassId) (a : Act) : List Act :=
  if Adapted cfg tu (tu.cls c).qname then []
  else match (tu.cls c).bases.find? fun b => decide (b.Serializable cfg tu) with
    | none => []
    | some b => [.versioning ((lex b.typeName).getD []), a]

/-- the members of the version, as far as accessible -/
noncomputable def versionFields (c : Class) (fn : Str) (v : Nat) : List Act :=
  (membersWith c fun before m => m.isConst = false ∧ (Befriends c fn ∨ m.isPublic = true) ∧ InVersion (markers before) v).map .field

/-- what a function for binary (de)serialization does if the version is `v` -/
noncomputable def Def.does (d : Def) (v : Nat) : List Act := (d.acts.filter fun a => decide (a.1.Holds v)).map Prod.snd

/-! ## The names in the pieces -/

theorem names_vis {cfg tu} (h : CppNames cfg tu) : cfg.visibility.getD [] = [] ∨ Identifier (cfg.visibility.getD []) := by
  cases hv : cfg.visibility with
  | none => exact .inl rfl
  | some v => exact h.visibility v hv

theorem names_bases {cfg tu} (h : CppNames cfg tu) (c : ClassId) : ∀ q ∈ wantedBases cfg tu c, QualifiedName q := by
  intro q hq
  simp only [wantedBases, List.mem_map, List.mem_filter] at hq
  obtain ⟨n, ⟨hn, _⟩, rfl⟩ := hq
  exact h.classes n hn

theorem names_fields {cfg tu} (h : CppNames cfg tu) {n} (hn : n ∈ wanted cfg tu) : ∀ f ∈ (tu.cls n.cls).fields, Identifier f.name := by
  intro f hf
  simp only [Class.fields, List.mem_filterMap] at hf
  obtain ⟨m, hm, h'⟩ := hf
  cases m with
  | field g => simp at h'; subst h'; exact h.members n hn _ hm
  | var _ _ => simp at h'
  | other => simp at h'

/-! ## JSON -/

theorem push_ok {cfg tu} (h : CppNames cfg tu) {n} (hn : n ∈ wanted cfg tu) :
    ∀ i ∈ pushBody cfg tu n, Item.CppOk i ∧ occurs .push i = true := by
  intro i hi
  simp only [pushBody, List.mem_append, List.mem_map, List.mem_singleton] at hi
  rcases hi with ((⟨q, hq, rfl⟩ | rfl) | ⟨m, hm, rfl⟩) | hi
  · exact ⟨names_bases h _ q hq, rfl⟩
  · exact ⟨trivial, rfl⟩
  · simp only [pushed, List.mem_map] at hm
    obtain ⟨f, hf, rfl⟩ := hm
    exact ⟨names_fields h hn f (List.mem_filter.1 hf).1, rfl⟩
  · by_cases hc : (wantedBases cfg tu n.cls).isEmpty && (pushed (tu.cls n.cls)).isEmpty
    · rw [if_pos hc] at hi; simp at hi; subst hi; exact ⟨trivial, rfl⟩
    · rw [if_neg hc] at hi; cases hi

theorem pull_ok {cfg tu} (h : CppNames cfg tu) {n} (hn : n ∈ wanted cfg tu) :
    ∀ i ∈ pullBody cfg tu n, Item.CppOk i ∧ occurs .pull i = true := by
  intro i hi
  simp only [pullBody, List.mem_append, List.mem_map, List.mem_singleton] at hi
  rcases hi with (((⟨q, hq, rfl⟩ | rfl) | ⟨m, hm, rfl⟩) | hi) | rfl
  · exact ⟨names_bases h _ q hq, rfl⟩
  · exact ⟨h.classes n hn, rfl⟩
  · simp only [pulled, List.mem_map] at hm
    obtain ⟨f, hf, rfl⟩ := hm
    exact ⟨names_fields h hn f (List.mem_filter.1 (List.mem_filter.1 hf).1).1, rfl⟩
  · by_cases hc : (wantedBases cfg tu n.cls).isEmpty && (pulled (tu.cls n.cls)).isEmpty
    · rw [if_pos hc] at hi; simp at hi; subst hi; exact ⟨trivial, rfl⟩
    · rw [if_neg hc] at hi; cases hi
  · exact ⟨trivial, rfl⟩

theorem pushed_eq (c : Class) : pushed c = membersWith c fun _ m =>
    Befriends c (lit "ReflectiveRapidJSON::JsonReflector::push") ∨ m.isPublic = true := by
  rw [membersWith_fields, pushed]
  congr 2; funext m
  rw [Bool.eq_iff_iff]
  simp [befriends_iff]

theorem pulled_eq (c : Class) : pulled c = membersWith c fun _ m => m.isConst = false ∧
    (Befriends c (lit "ReflectiveRapidJSON::JsonReflector::pull") ∨ m.isPublic = true) := by
  rw [membersWith_fields, pulled, List.filter_filter]
  congr 2; funext m
  rw [Bool.eq_iff_iff]
  simp [befriends_iff, and_comm]

theorem flatMap_one {α β} (f : α → β) (l : List α) : l.flatMap (fun x => [f x]) = l.map f := by
  induction l with
  | nil => rfl
  | cons a l ih => simp [ih]

theorem push_acts (cfg : Config) (tu : TU) (n : Node) : (pushBody cfg tu n).flatMap itemActs =
    (wantedBases cfg tu n.cls).map Act.base ++ (pushed (tu.cls n.cls)).map fun m => Act.member m m := by
  unfold pushBody
  simp only [List.flatMap_append, List.flatMap_map, itemActs, List.flatMap_cons, List.flatMap_nil, List.append_nil]
  split <;> simp [itemActs, flatMap_one]

theorem pull_acts (cfg : Config) (tu : TU) (n : Node) : (pullBody cfg tu n).flatMap itemActs =
    (wantedBases cfg tu n.cls).map Act.base ++ [Act.setRecord (tu.cls n.cls).qname] ++
      ((pulled (tu.cls n.cls)).map fun m => Act.member m m) ++ [Act.restoreRecord] := by
  unfold pullBody
  simp only [List.flatMap_append, List.flatMap_map, itemActs, List.flatMap_cons, List.flatMap_nil, List.append_nil]
  split <;> simp [itemActs, flatMap_one]

theorem defs_json {cfg tu} (wf : TU.WellFormed tu) (h : CppNames cfg tu) (lookup : List Str → Str) {n} (hn : n ∈ wanted cfg tu) :
    Defs lookup [.push, .pull] (jsonClass cfg tu (findRelevantClasses cfg tu) (entry cfg tu n)) (jsonDefs cfg tu n) ∧
    ∀ i ∈ jsonClass cfg tu (findRelevantClasses cfg tu) (entry cfg tu n), Item.CppOk i := by
  rw [jsonClass_eq cfg tu wf]
  have hq := h.classes n hn
  have b1 := Body.items (lookup := lookup) (k := .push) _ (push_ok h hn)
  have b2 := Body.items (lookup := lookup) (k := .pull) _ (pull_ok h hn)
  rw [push_acts, pushed_eq] at b1
  rw [pull_acts, pulled_eq] at b2
  rw [show (fun a => (Cpp.always, a)) = unconditional from rfl] at b1 b2
  have d1 := Defs.fn (kinds := [.push, .pull]) (k := .push) (by decide) (o := .pushOpen (cfg.visibility.getD []) (tu.cls n.cls).qname)
    (e := .funEnd) hq rfl rfl b1
  have d2 := Defs.fn (kinds := [.push, .pull]) (k := .pull) (by decide) (o := .pullOpen (cfg.visibility.getD []) (tu.cls n.cls).qname)
    (e := .funEndBlank) hq rfl rfl b2
  constructor
  · have hc : Defs lookup [.push, .pull] [.classComment (tu.cls n.cls).qname] [] := .comment
    by_cases hd : (tu.cls n.cls).hasDefaultCtor = true
    · rw [if_pos hd, jsonDefs]
      simp only [hd, ↓reduceIte]
      have := (hc.app d1).app d2
      simpa only [List.append_assoc, List.cons_append, List.nil_append] using this
    · rw [if_neg hd, jsonDefs]
      simp only [hd, Bool.false_eq_true, ↓reduceIte]
      have := hc.app d1
      simpa only [List.append_assoc, List.cons_append, List.nil_append] using this
  · intro i hi
    simp only [List.mem_append, List.mem_cons, List.not_mem_nil, or_false] at hi
    rcases hi with (((rfl | rfl) | hi) | rfl) | hi
    · exact hq
    · exact ⟨names_vis h, hq⟩
    · exact (push_ok h hn i hi).1
    · trivial
    · split at hi
      · simp only [List.mem_append, List.mem_cons, List.not_mem_nil, or_false] at hi
        rcases hi with (rfl | hi) | rfl
        · exact ⟨names_vis h, hq⟩
        · exact (pull_ok h hn i hi).1
        · trivial
      · cases hi

theorem flatMap_entries {cfg tu} (wf : TU.WellFormed tu) (g : List Relevant → Relevant → List Item) :
    (findRelevantClasses cfg tu).flatMap (g (findRelevantClasses cfg tu)) =
      (wanted cfg tu).flatMap fun n => g (findRelevantClasses cfg tu) (entry cfg tu n) := by
  conv => lhs; arg 2; rw [findRelevantClasses_eq cfg tu wf]
  rw [List.flatMap_map]

/-- C59 (JSON): the generated text, read as C++, consists of exactly the functions for the wanted classes (for the class of that
name, independently of which names can be found by lookup from where the code is put), and these (de)serialize the wanted bases,
then the accessible members as JSON members of the same name, with the class as record of the error context. -/
theorem C59_json_text (cfg : Config) (tu : TU) (wf : tu.WellFormed) (names : CppNames cfg tu) (some_ : wanted cfg tu ≠ [])
    (lookup : List Str → Str) :
    readCode lookup "JsonReflector" [.push, .pull] (renderAll (generateJson cfg tu)) =
      some ((wanted cfg tu).flatMap (jsonDefs cfg tu)) := by
  have hE : ¬ (findRelevantClasses cfg tu).isEmpty = true := by rw [findRelevantClasses_eq cfg tu wf]; simpa using some_
  unfold generateJson
  simp only
  rw [if_neg hE, flatMap_entries wf]
  refine readCode_ok (by decide +kernel) (by unfold Identifier; decide +kernel) ?_ ?_
  · intro i hi
    simp only [List.mem_flatMap] at hi
    obtain ⟨n, hn, hi⟩ := hi
    exact (defs_json wf names lookup hn).2 i hi
  · exact .flatMap _ _ _ fun n hn => (defs_json wf names lookup hn).1

/-! ## Binary -/

theorem names_version {cfg tu} (h : CppNames cfg tu) {n} (hn : n ∈ wanted cfg tu) (hv : (versionName cfg tu n.cls).isEmpty = false) :
    ∃ ts, TypeText (versionName cfg tu n.cls) ts := by
  unfold versionName at hv ⊢
  cases hb : relevantBaseOf cfg tu n.cls with
  | none => rw [hb] at hv; cases hv
  | some b =>
    unfold relevantBaseOf at hb
    split at hb
    · cases hb
    · have := List.find?_some hb
      exact h.types n hn b (List.mem_of_find?_eq_some hb) (by simpa using this)

theorem version_acts {cfg tu} (h : CppNames cfg tu) {n} (hn : n ∈ wanted cfg tu) (a : Act) :
    (if (versionName cfg tu n.cls).isEmpty then [] else [Act.versioning (toks (versionName cfg tu n.cls)), a]) = versionActs cfg tu n.cls a := by
  unfold versionActs versionName
  unfold relevantBaseOf
  by_cases ha : Adapted cfg tu (tu.cls n.cls).qname
  · simp [ha]
  · rw [if_neg ha, if_neg ha]
    cases hb : (tu.cls n.cls).bases.find? fun b => decide (b.Serializable cfg tu) with
    | none => rfl
    | some b =>
      have := List.find?_some hb
      obtain ⟨ts, -, -, ⟨c, cs, -, hs⟩, -⟩ := h.types n hn b (List.mem_of_find?_eq_some hb) (by simpa using this)
      have : b.typeName.isEmpty = false := by rcases hs with hs | hs <;> rw [hs] <;> rfl
      simp only [Option.map_some, Option.getD_some, this, Bool.false_eq_true, ↓reduceIte]
      rfl

/-- pieces emitted by `writeVersionCondition` etc. -/
theorem condition_cpp (mt : Tracking) {k : FnKind} : ∀ i ∈ (writeVersionCondition mt).1, Item.CppOk i ∧ inLoop k i := by
  intro i hi
  unfold writeVersionCondition concludeCondition at hi
  simp only at hi
  split at hi
  · cases hi
  · rcases List.mem_append.1 hi with hi | hi
    · split at hi <;> simp at hi <;> subst hi <;> exact ⟨trivial, trivial⟩
    · split at hi
      · rename_i hc
        simp at hi; subst hi; exact ⟨hc, trivial⟩
      · cases hi

theorem padding_cpp (mt : Tracking) {k : FnKind} (hk : k = .write ∨ k = .read) : ∀ i ∈ writeExtraPadding mt, Item.CppOk i ∧ inLoop k i := by
  intro i hi
  unfold writeExtraPadding at hi
  split at hi <;> simp at hi
  subst hi; exact ⟨trivial, hk⟩

theorem conclude_cpp (mt : Tracking) {k : FnKind} : ∀ i ∈ concludeCondition mt, Item.CppOk i ∧ inLoop k i := by
  intro i hi
  unfold concludeCondition at hi
  split at hi <;> simp at hi
  subst hi; exact ⟨trivial, trivial⟩

theorem writeLoop_cpp (priv : Bool) (ms : List Member) (h : ∀ f, Member.field f ∈ ms → Identifier f.name) :
    ∀ mt, ∀ i ∈ (writeLoop priv mt ms).1, Item.CppOk i ∧ inLoop .write i := by
  induction ms with
  | nil => intro mt i hi; cases hi
  | cons m ms ih =>
    have ih := ih fun f hf => h f (by simp [hf])
    intro mt i hi
    cases m with
    | var name ls => exact ih _ i hi
    | other => exact ih _ i hi
    | field f =>
      rw [writeLoop] at hi
      split at hi
      · exact ih _ i hi
      · split at hi
        · exact ih _ i hi
        · simp only [List.mem_append, List.mem_singleton] at hi
          rcases hi with ((hi | hi) | rfl) | hi
          · exact condition_cpp _ i hi
          · exact padding_cpp _ (.inl rfl) i hi
          · exact ⟨h f (by simp), rfl⟩
          · exact ih _ i hi

theorem readLoop_cpp (priv : Bool) (ms : List Member) (h : ∀ f, Member.field f ∈ ms → Identifier f.name) :
    ∀ mt, ∀ i ∈ (readLoop priv mt ms).1, Item.CppOk i ∧ inLoop .read i := by
  induction ms with
  | nil => intro mt i hi; cases hi
  | cons m ms ih =>
    have ih := ih fun f hf => h f (by simp [hf])
    intro mt i hi
    cases m with
    | var name ls => exact ih _ i hi
    | other => exact ih _ i hi
    | field f =>
      rw [readLoop] at hi
      split at hi
      · exact ih _ i hi
      · simp only at hi
        split at hi
        · simp only [List.mem_append, List.mem_singleton] at hi
          rcases hi with ((hi | hi) | rfl) | hi
          · exact condition_cpp _ i hi
          · exact padding_cpp _ (.inr rfl) i hi
          · exact ⟨h f (by simp), rfl⟩
          · exact ih _ i hi
        · simp only [List.mem_append] at hi
          rcases hi with (hi | hi) | hi
          · exact condition_cpp _ i hi
          · exact padding_cpp _ (.inr rfl) i hi
          · exact ih _ i hi

/-- the members with their conditions -/
noncomputable def fieldActs (gs : List (Guard × FieldD)) : List (Cond × Act) := gs.map fun gf => (condOf gf.1, .field gf.2.name)

theorem write_body {cfg tu} (h : CppNames cfg tu) (lookup : List Str → Str) {n} (hn : n ∈ wanted cfg tu) :
    Body lookup .write (writeBody cfg tu n) (((wantedBases cfg tu n.cls).map Act.base ++ versionActs cfg tu n.cls .writeVersion).map unconditional
      ++ fieldActs (guarded (writes (canWritePrivate (tu.cls n.cls))) {} (tu.cls n.cls).members)) ∧
    ∀ i ∈ writeBody cfg tu n, Item.CppOk i := by
  have hc := writeLoop_compile (canWritePrivate (tu.cls n.cls)) [] (tu.cls n.cls).members {} rfl
  rw [List.append_nil] at hc
  have hl : ∀ i ∈ (writeLoop (canWritePrivate (tu.cls n.cls)) {} (tu.cls n.cls).members).1 ++
      concludeCondition (writeLoop (canWritePrivate (tu.cls n.cls)) {} (tu.cls n.cls).members).2, Item.CppOk i ∧ inLoop .write i := by
    intro i hi
    rcases List.mem_append.1 hi with hi | hi
    · exact writeLoop_cpp _ _ (h.members n hn) _ i hi
    · exact conclude_cpp _ i hi
  have b2 := loop (lookup := lookup) (k := .write) _ hl none _ hc
  simp only [Loop, List.append_nil, List.map_map] at b2
  have hp : ∀ i ∈ (wantedBases cfg tu n.cls).map Item.writeBase ++ (if (versionName cfg tu n.cls).isEmpty then [] else [.writeVersion (versionName cfg tu n.cls)])
      ++ [Item.writeComment], Item.CppOk i ∧ occurs .write i = true := by
    intro i hi
    simp only [List.mem_append, List.mem_map, List.mem_singleton] at hi
    rcases hi with (⟨q, hq, rfl⟩ | hi) | rfl
    · exact ⟨names_bases h _ q hq, rfl⟩
    · split at hi
      · cases hi
      · rename_i hv
        simp at hi; subst hi
        exact ⟨names_version h hn (by simpa using hv), rfl⟩
    · exact ⟨trivial, rfl⟩
  have hs : ∀ i ∈ (if (wantedBases cfg tu n.cls).isEmpty && !(writeLoop (canWritePrivate (tu.cls n.cls)) {} (tu.cls n.cls).members).2.membersWritten
      then [Item.writeVoid] else []), Item.CppOk i ∧ occurs .write i = true := by
    intro i hi
    split at hi <;> simp at hi
    subst hi; exact ⟨trivial, rfl⟩
  have b1 := Body.items (lookup := lookup) _ hp
  have b3 := Body.items (lookup := lookup) _ hs
  constructor
  · have := b1.app (b2.app b3)
    unfold writeBody
    simp only
    refine Eq.mp ?_ this
    congr 1
    rw [← version_acts h hn]
    have e3 : (if (wantedBases cfg tu n.cls).isEmpty && !(writeLoop (canWritePrivate (tu.cls n.cls)) {} (tu.cls n.cls).members).2.membersWritten
      then [Item.writeVoid] else []).flatMap itemActs = [] := by split <;> rfl
    rw [e3, List.flatMap_append, List.flatMap_append, List.flatMap_map]
    simp only [itemActs, flatMap_one, List.map_nil, List.append_nil, List.flatMap_cons, List.flatMap_nil]
    congr 1
    split <;> rfl
  · intro i hi
    unfold writeBody at hi
    simp only at hi
    rcases List.mem_append.1 hi with hi | hi
    · exact (hp i hi).1
    · rcases List.mem_append.1 hi with hi | hi
      · exact (hl i hi).1
      · exact (hs i hi).1

theorem read_body {cfg tu} (h : CppNames cfg tu) (lookup : List Str → Str) {n} (hn : n ∈ wanted cfg tu) :
    Body lookup .read (readBody cfg tu n) (((wantedBases cfg tu n.cls).map Act.base ++ versionActs cfg tu n.cls (.readVersion (tu.cls n.cls).qname)).map unconditional
      ++ fieldActs (guarded (writes (canReadPrivate (tu.cls n.cls))) {} (tu.cls n.cls).members) ++ [unconditional .returnVersion]) ∧
    ∀ i ∈ readBody cfg tu n, Item.CppOk i := by
  have hc := readLoop_compile (canReadPrivate (tu.cls n.cls)) [] (tu.cls n.cls).members {} rfl
  rw [List.append_nil] at hc
  have hl : ∀ i ∈ (readLoop (canReadPrivate (tu.cls n.cls)) {} (tu.cls n.cls).members).1 ++
      concludeCondition (readLoop (canReadPrivate (tu.cls n.cls)) {} (tu.cls n.cls).members).2, Item.CppOk i ∧ inLoop .read i := by
    intro i hi
    rcases List.mem_append.1 hi with hi | hi
    · exact readLoop_cpp _ _ (h.members n hn) _ i hi
    · exact conclude_cpp _ i hi
  have b2 := loop (lookup := lookup) (k := .read) _ hl none _ hc
  simp only [Loop, List.append_nil, List.map_map] at b2
  have hp : ∀ i ∈ (wantedBases cfg tu n.cls).map Item.readBase ++ (if (versionName cfg tu n.cls).isEmpty then [] else [.readVersion (versionName cfg tu n.cls) (tu.cls n.cls).qname])
      ++ [Item.readComment], Item.CppOk i ∧ occurs .read i = true := by
    intro i hi
    simp only [List.mem_append, List.mem_map, List.mem_singleton] at hi
    rcases hi with (⟨q, hq, rfl⟩ | hi) | rfl
    · exact ⟨names_bases h _ q hq, rfl⟩
    · split at hi
      · cases hi
      · rename_i hv
        simp at hi; subst hi
        exact ⟨⟨names_version h hn (by simpa using hv), h.classes n hn⟩, rfl⟩
    · exact ⟨trivial, rfl⟩
  have hs : ∀ i ∈ (if (wantedBases cfg tu n.cls).isEmpty && !(readLoop (canReadPrivate (tu.cls n.cls)) {} (tu.cls n.cls).members).2.membersWritten
      then [Item.readVoid] else []) ++ [.readReturn], Item.CppOk i ∧ occurs .read i = true := by
    intro i hi
    rcases List.mem_append.1 hi with hi | hi
    · split at hi <;> simp at hi
      subst hi; exact ⟨trivial, rfl⟩
    · simp at hi; subst hi; exact ⟨trivial, rfl⟩
  have b1 := Body.items (lookup := lookup) _ hp
  have b3 := Body.items (lookup := lookup) _ hs
  constructor
  · have := b1.app (b2.app b3)
    unfold readBody
    simp only
    refine Eq.mp ?_ this
    congr 1
    rw [← version_acts h hn]
    have e3 : ((if (wantedBases cfg tu n.cls).isEmpty && !(readLoop (canReadPrivate (tu.cls n.cls)) {} (tu.cls n.cls).members).2.membersWritten
      then [Item.readVoid] else []) ++ [Item.readReturn]).flatMap itemActs = [.returnVersion] := by split <;> rfl
    rw [e3, List.flatMap_append, List.flatMap_append, List.flatMap_map, ← List.append_assoc]
    simp only [itemActs, flatMap_one, List.append_nil, List.flatMap_cons, List.flatMap_nil]
    congr 2
    split <;> rfl
  · intro i hi
    unfold readBody at hi
    simp only at hi
    rcases List.mem_append.1 hi with hi | hi
    · exact (hp i hi).1
    · rcases List.mem_append.1 hi with hi | hi
      · exact (hl i hi).1
      · exact (hs i hi).1

/-- the definitions for a class -/
noncomputable def binaryDefs (cfg : Config) (tu : TU) (n : Node) : List Def :=
  let c := tu.cls n.cls
  ⟨.write, c.qname, ((wantedBases cfg tu n.cls).map Act.base ++ versionActs cfg tu n.cls .writeVersion).map unconditional
    ++ fieldActs (guarded (writes (canWritePrivate c)) {} c.members)⟩ ::
  (if c.hasDefaultCtor = true then [⟨.read, c.qname, ((wantedBases cfg tu n.cls).map Act.base ++ versionActs cfg tu n.cls (.readVersion c.qname)).map unconditional
      ++ fieldActs (guarded (writes (canReadPrivate c)) {} c.members) ++ [unconditional .returnVersion]⟩] else [])

theorem defs_binary {cfg tu} (wf : TU.WellFormed tu) (h : CppNames cfg tu) (lookup : List Str → Str) {n} (hn : n ∈ wanted cfg tu) :
    Defs lookup [.write, .read] (binaryClass cfg tu (findRelevantClasses cfg tu) (entry cfg tu n)) (binaryDefs cfg tu n) ∧
    ∀ i ∈ binaryClass cfg tu (findRelevantClasses cfg tu) (entry cfg tu n), Item.CppOk i := by
  rw [binaryClass_eq cfg tu wf]
  have hq := h.classes n hn
  have b1 := write_body h lookup hn
  have b2 := read_body h lookup hn
  have d1 := Defs.fn (kinds := [.write, .read]) (k := .write) (by decide) (o := .writeOpen (cfg.visibility.getD []) (tu.cls n.cls).qname)
    (e := .funEnd) hq rfl rfl b1.1
  have d2 := Defs.fn (kinds := [.write, .read]) (k := .read) (by decide) (o := .readOpen (cfg.visibility.getD []) (tu.cls n.cls).qname)
    (e := .funEndBlank) hq rfl rfl b2.1
  constructor
  · have hc : Defs lookup [.write, .read] [.classComment (tu.cls n.cls).qname] [] := .comment
    by_cases hd : (tu.cls n.cls).hasDefaultCtor = true
    · rw [if_pos hd, binaryDefs]
      simp only [hd, ↓reduceIte]
      have := (hc.app d1).app d2
      simpa only [List.append_assoc, List.cons_append, List.nil_append] using this
    · rw [if_neg hd, binaryDefs]
      simp only [hd, Bool.false_eq_true, ↓reduceIte]
      have := hc.app d1
      simpa only [List.append_assoc, List.cons_append, List.nil_append] using this
  · intro i hi
    simp only [List.mem_append, List.mem_cons, List.not_mem_nil, or_false] at hi
    rcases hi with (((rfl | rfl) | hi) | rfl) | hi
    · exact hq
    · exact ⟨names_vis h, hq⟩
    · exact b1.2 i hi
    · trivial
    · split at hi
      · simp only [List.mem_append, List.mem_cons, List.not_mem_nil, or_false] at hi
        rcases hi with (rfl | hi) | rfl
        · exact ⟨names_vis h, hq⟩
        · exact b2.2 i hi
        · trivial
      · cases hi

theorem does_unconditional (as : List Act) (v : Nat) :
    ((as.map unconditional).filter fun a => decide (a.1.Holds v)).map Prod.snd = as := by
  induction as with
  | nil => rfl
  | cons a as ih =>
    rw [List.map_cons, List.filter_cons_of_pos (by simp [unconditional, Cpp.always, Cond.Holds]), List.map_cons, ih]
    rfl

theorem does_fields (c : Class) (priv : Bool) (fn : Str) (hp : priv = befriends c fn) (v : Nat) :
    ((fieldActs (guarded (writes priv) {} c.members)).filter fun a => decide (a.1.Holds v)).map Prod.snd = versionFields c fn v := by
  have := guarded_members c priv (Befriends c fn) (by rw [hp]; exact befriends_iff c fn) v
  unfold versionFields
  rw [show (membersWith c fun before m => m.isConst = false ∧ (Befriends c fn ∨ m.isPublic = true) ∧ InVersion (markers before) v)
    = binaryMembers c (Befriends c fn) v from rfl, ← this]
  unfold fieldActs
  rw [List.filter_map, List.map_map, List.map_map]
  congr 1
  apply List.filter_congr
  intro gf _
  rw [Bool.eq_iff_iff]
  simp [condOf_holds]

/-- C59 (binary): the generated text, read as C++, consists of exactly the functions for the wanted classes, and these write/read
for every version the wanted bases, the version if the class inherits the serializable template (as versioned by that base), then
the accessible members which belong to the version; the reading function returns the version. -/
theorem C59_binary_text (cfg : Config) (tu : TU) (wf : tu.WellFormed) (names : CppNames cfg tu) (some_ : wanted cfg tu ≠ []) :
    ∃ D : Node → List Def,
      (∀ lookup, readCode lookup "BinaryReflector" [.write, .read] (renderAll (generateBinary cfg tu)) = some ((wanted cfg tu).flatMap D)) ∧
      ∀ n,
        (D n).map (fun d => (d.kind, d.cls)) = (FnKind.write, (tu.cls n.cls).qname) ::
          (if (tu.cls n.cls).hasDefaultCtor = true then [(FnKind.read, (tu.cls n.cls).qname)] else []) ∧
        (∀ d ∈ D n, d.kind = .write → ∀ v, Def.does d v = (wantedBases cfg tu n.cls).map Act.base ++ versionActs cfg tu n.cls .writeVersion ++
          versionFields (tu.cls n.cls) (lit "ReflectiveRapidJSON::BinaryReflector::writeCustomType") v) ∧
        (∀ d ∈ D n, d.kind = .read → ∀ v, Def.does d v = (wantedBases cfg tu n.cls).map Act.base ++
          versionActs cfg tu n.cls (.readVersion (tu.cls n.cls).qname) ++
          versionFields (tu.cls n.cls) (lit "ReflectiveRapidJSON::BinaryReflector::readCustomType") v ++ [.returnVersion]) := by
  have hE : ¬ (findRelevantClasses cfg tu).isEmpty = true := by rw [findRelevantClasses_eq cfg tu wf]; simpa using some_
  refine ⟨binaryDefs cfg tu, fun lookup => ?_, fun n => ⟨?_, ?_, ?_⟩⟩
  · unfold generateBinary
    simp only
    rw [if_neg hE, flatMap_entries wf]
    refine readCode_ok (by decide +kernel) (by unfold Identifier; decide +kernel) ?_ ?_
    · intro i hi
      simp only [List.mem_flatMap] at hi
      obtain ⟨n, hn, hi⟩ := hi
      exact (defs_binary wf names lookup hn).2 i hi
    · exact .flatMap _ _ _ fun n hn => (defs_binary wf names lookup hn).1
  · unfold binaryDefs
    by_cases hd : (tu.cls n.cls).hasDefaultCtor = true <;> simp [hd]
  · intro d hd hk v
    unfold binaryDefs at hd
    rcases List.mem_cons.1 hd with rfl | hd
    · unfold Def.does
      rw [List.filter_append, List.map_append, does_unconditional,
        does_fields _ (canWritePrivate (tu.cls n.cls)) (lit "ReflectiveRapidJSON::BinaryReflector::writeCustomType") rfl]
    · split at hd
      · simp at hd; subst hd; cases hk
      · cases hd
  · intro d hd hk v
    unfold binaryDefs at hd
    rcases List.mem_cons.1 hd with rfl | hd
    · cases hk
    · split at hd
      · rw [List.mem_singleton] at hd; subst hd
        unfold Def.does
        have := does_unconditional [.returnVersion] v
        rw [List.map_cons, List.map_nil] at this
        rw [List.filter_append, List.map_append, List.filter_append, List.map_append, does_unconditional,
          does_fields _ (canReadPrivate (tu.cls n.cls)) (lit "ReflectiveRapidJSON::BinaryReflector::readCustomType") rfl, this]
      · cases hd

end Verif.Gen

namespace Verif.Gen

open Cpp

/-! ## The theorems applied -/

theorem typeText_of {s : Str} (h : (lex s).isSome = true ∧
    (∀ t ∈ (lex s).getD [], t ≠ .sym (lit ";") ∧ t ≠ .sym (lit "{") ∧ t ≠ .sym (lit "}")) ∧
    (∃ c ∈ s.head?, isWordChar c = true) ∧ (∃ c ∈ s.getLast?, isWordChar c = true ∨ c = 0x3e)) : ∃ ts, TypeText s ts := by
  obtain ⟨h1, h2, ⟨c, hc, hc'⟩, ⟨d, hd, hd'⟩⟩ := h
  obtain ⟨ts, hts⟩ := Option.isSome_iff_exists.1 h1
  rw [hts] at h2
  refine ⟨ts, hts, h2, ?_, ?_⟩
  · cases s with
    | nil => cases hc
    | cons a cs =>
      rw [List.head?_cons, Option.mem_some_iff] at hc
      exact ⟨a, cs, hc ▸ hc', .inl rfl⟩
  · obtain ⟨ys, e⟩ := List.getLast?_eq_some_iff.1 hd
    exact ⟨ys, d, e, hd'⟩

/-- with the usual macro for exporting symbols -/
def Demo.exported : Config := binaryConfig none (some (lit "LIB_EXPORT"))

theorem demo_cpp_names {cfg : Config} (hv : ∀ v, cfg.visibility = some v → v = [] ∨ Identifier v)
    (h : ∀ n ∈ wanted cfg Demo.tu, n.cls ∈ [3, 4, 5, 6, 8, 10]) : CppNames cfg Demo.tu where
  visibility := hv
  classes := by
    have key : ∀ c ∈ [3, 4, 5, 6, 8, 10], ∃ w ∈ [lit "Root", lit "Mid", lit "Leaf", lit "Special", lit "ThirdParty", lit "Requested"],
        (Demo.tu.cls c).qname = pathText [lit "N", w] := by decide +kernel
    intro n hn
    obtain ⟨w, hw, e⟩ := key _ (h n hn)
    refine ⟨[lit "N", w], by simp, ?_, e⟩
    have : ∀ w ∈ [lit "Root", lit "Mid", lit "Leaf", lit "Special", lit "ThirdParty", lit "Requested"],
      ∀ x ∈ [lit "N", w], Identifier x := by unfold Identifier; decide +kernel
    exact this w hw
  members := by
    have key : ∀ c ∈ [3, 4, 5, 6, 8, 10], ∀ m ∈ (Demo.tu.cls c).members,
        (match m with | .field f => decide (f.name ≠ [] ∧ ∀ c ∈ f.name, isWordChar c = true) | _ => true) = true := by decide +kernel
    intro n hn f hf
    have := of_decide_eq_true (key _ (h n hn) _ hf)
    exact this
  types := by
    have key : ∀ c ∈ [3, 4, 5, 6, 8, 10], ∀ b ∈ (Demo.tu.cls c).bases, b.typeName ∈ [lit "ReflectiveRapidJSON::JsonSerializable<X>",
        lit "ReflectiveRapidJSON::BinarySerializable<X, 3>", lit "Root", lit "Mid", lit "Included"] := by decide +kernel
    intro n hn b hb _
    have := key _ (h n hn) b hb
    simp only [List.mem_cons, List.not_mem_nil, or_false] at this
    rcases this with e | e | e | e | e <;> rw [e] <;> exact typeText_of (by decide +kernel)

theorem demo_cpp_wanted_exported : (wanted Demo.exported Demo.tu).map Node.cls = [3, 4, 5, 6] := by
  have h := congrArg (List.map fun r => r.node.cls) (findRelevantClasses_eq Demo.exported Demo.tu demo_wf)
  rw [List.map_map] at h
  exact h.symm.trans (by decide +kernel)

theorem demo_cpp_wanted_json : (wanted Demo.json Demo.tu).map Node.cls = [8, 3, 4, 5, 6, 10] := by
  have h := congrArg (List.map fun r => r.node.cls) (findRelevantClasses_eq Demo.json Demo.tu demo_wf)
  rw [List.map_map] at h
  exact h.symm.trans (by decide +kernel)

theorem demo_cpp_names_json : CppNames Demo.json Demo.tu := by
  refine demo_cpp_names (fun v hv => by cases hv) fun n hn => ?_
  have := List.mem_map_of_mem (f := Node.cls) hn
  rw [demo_cpp_wanted_json] at this
  have key : ∀ c ∈ [8, 3, 4, 5, 6, 10], c ∈ [3, 4, 5, 6, 8, 10] := by decide
  exact key _ this

theorem demo_cpp_names_exported : CppNames Demo.exported Demo.tu := by
  refine demo_cpp_names (fun v hv => by cases hv; right; unfold Identifier; decide +kernel) fun n hn => ?_
  have := List.mem_map_of_mem (f := Node.cls) hn
  rw [demo_cpp_wanted_exported] at this
  have key : ∀ c ∈ [3, 4, 5, 6], c ∈ [3, 4, 5, 6, 8, 10] := by decide
  exact key _ this

example (lookup : List Str → Str) :
    readCode lookup "JsonReflector" [.push, .pull] (renderAll (generateJson Demo.json Demo.tu)) =
      some ((wanted Demo.json Demo.tu).flatMap (jsonDefs Demo.json Demo.tu)) :=
  C59_json_text _ _ demo_wf demo_cpp_names_json (fun h => by have := demo_cpp_wanted_json; rw [h] at this; cases this) lookup

example : ∃ D : Node → List Def, ∀ lookup,
    readCode lookup "BinaryReflector" [.write, .read] (renderAll (generateBinary Demo.exported Demo.tu)) =
      some ((wanted Demo.exported Demo.tu).flatMap D) := by
  obtain ⟨D, h, -⟩ := C59_binary_text _ _ demo_wf demo_cpp_names_exported (fun h => by have := demo_cpp_wanted_exported; rw [h] at this; cases this)
  exact ⟨D, h⟩

/-- the functions read from the text generated for the demo translation unit, and the members by version of the last one -/
example : ∃ defs, readCode pathText "BinaryReflector" [.write, .read] (renderAll (generateBinary Demo.exported Demo.tu)) = some defs ∧
    defs.map (fun d => (d.kind, d.cls)) = [(.write, lit "N::Root"), (.read, lit "N::Root"), (.write, lit "N::Mid"), (.read, lit "N::Mid"),
      (.write, lit "N::Leaf"), (.read, lit "N::Leaf"), (.write, lit "N::Special")] := by
  obtain ⟨D, h, hD⟩ := C59_binary_text _ _ demo_wf demo_cpp_names_exported (fun h => by have := demo_cpp_wanted_exported; rw [h] at this; cases this)
  refine ⟨_, h pathText, ?_⟩
  rw [List.map_flatMap]
  have e : (fun n => (D n).map fun d => (d.kind, d.cls)) = fun n : Node => (fun c => (FnKind.write, (Demo.tu.cls c).qname) ::
      (if (Demo.tu.cls c).hasDefaultCtor = true then [(FnKind.read, (Demo.tu.cls c).qname)] else [])) n.cls := by
    funext n; exact (hD n).1
  rw [e]
  refine (List.flatMap_map (f := Node.cls) (wanted Demo.exported Demo.tu) (g := fun c => (FnKind.write, (Demo.tu.cls c).qname) ::
    (if (Demo.tu.cls c).hasDefaultCtor = true then [(FnKind.read, (Demo.tu.cls c).qname)] else []))).symm.trans ?_
  rw [demo_cpp_wanted_exported]
  decide +kernel

/-- the reader is not indifferent: a name which is not globally qualified refers to what name lookup finds -/
example : readCode (fun _ => lit "Other") "JsonReflector" [.push, .pull]
    (lit "namespace ReflectiveRapidJSON { namespace JsonReflector { template <> void push<::A>(const ::A &reflectable, ::RAPIDJSON_NAMESPACE::Value::Object &value, ::RAPIDJSON_NAMESPACE::Document::AllocatorType &allocator) { push(static_cast<const B &>(reflectable), value, allocator); push(reflectable.x, \"y\", value, allocator); } } }") =
    some [⟨.push, lit "A", [(Cpp.always, .base (lit "Other")), (Cpp.always, .member (lit "x") (lit "y"))]⟩] := by
  decide +kernel

end Verif.Gen
