import Verif.Lemmas.GenBinary

/-!
# Code generator: functions emitted by the binary generator
-/

namespace Verif.Gen

open Classical

/-- printed name of the base specifier which makes a class serializable, if any -/
noncomputable def versionName (cfg : Config) (tu : TU) (c : ClassId) : Str :=
  ((relevantBaseOf cfg tu c).map BaseSpec.typeName).getD []

def canWritePrivate (c : Class) : Bool := befriends c (lit "ReflectiveRapidJSON::BinaryReflector::writeCustomType")
def canReadPrivate (c : Class) : Bool := befriends c (lit "ReflectiveRapidJSON::BinaryReflector::readCustomType")

noncomputable def writeBody (cfg : Config) (tu : TU) (n : Node) : List Item :=
  let c := tu.cls n.cls
  let bases := wantedBases cfg tu n.cls
  let w := writeLoop (canWritePrivate c) {} c.members
  bases.map .writeBase ++ (if (versionName cfg tu n.cls).isEmpty then [] else [.writeVersion (versionName cfg tu n.cls)])
    ++ [.writeComment] ++ (w.1 ++ concludeCondition w.2 ++ (if bases.isEmpty && !w.2.membersWritten then [.writeVoid] else []))

noncomputable def readBody (cfg : Config) (tu : TU) (n : Node) : List Item :=
  let c := tu.cls n.cls
  let bases := wantedBases cfg tu n.cls
  let w := readLoop (canReadPrivate c) {} c.members
  bases.map .readBase ++ (if (versionName cfg tu n.cls).isEmpty then [] else [.readVersion (versionName cfg tu n.cls) c.qname])
    ++ [.readComment] ++ (w.1 ++ concludeCondition w.2 ++ ((if bases.isEmpty && !w.2.membersWritten then [.readVoid] else []) ++ [.readReturn]))

noncomputable def binaryFns (cfg : Config) (tu : TU) (n : Node) : List Fn :=
  ⟨.write, (tu.cls n.cls).qname, writeBody cfg tu n⟩
    :: (if (tu.cls n.cls).hasDefaultCtor then [⟨.read, (tu.cls n.cls).qname, readBody cfg tu n⟩] else [])

theorem binaryClass_eq (cfg : Config) (tu : TU) (wf : tu.WellFormed) (n : Node) :
    binaryClass cfg tu (findRelevantClasses cfg tu) (entry cfg tu n) =
      [.classComment (tu.cls n.cls).qname, .writeOpen (cfg.visibility.getD []) (tu.cls n.cls).qname] ++ writeBody cfg tu n ++ [.funEnd]
        ++ (if (tu.cls n.cls).hasDefaultCtor then
          [.readOpen (cfg.visibility.getD []) (tu.cls n.cls).qname] ++ readBody cfg tu n ++ [.funEndBlank] else []) := by
  unfold binaryClass
  simp only [findBases_eq cfg tu wf]
  by_cases hd : (tu.cls n.cls).hasDefaultCtor = true <;>
    simp [hd, writeBody, readBody, entry, versionName, canReadPrivate, canWritePrivate, List.append_assoc]

theorem condition_ends (mt : Tracking) : ∀ i ∈ (writeVersionCondition mt).1, i.ends = false := by
  intro i hi
  unfold writeVersionCondition concludeCondition at hi
  simp only at hi
  split at hi
  · cases hi
  · rcases List.mem_append.1 hi with hi | hi <;> split at hi <;> simp at hi <;> subst hi <;> rfl

theorem padding_ends (mt : Tracking) : ∀ i ∈ writeExtraPadding mt, i.ends = false := by
  intro i hi
  unfold writeExtraPadding at hi
  split at hi <;> simp at hi
  subst hi; rfl

theorem conclude_ends (mt : Tracking) : ∀ i ∈ concludeCondition mt, i.ends = false := by
  intro i hi
  unfold concludeCondition at hi
  split at hi <;> simp at hi
  subst hi; rfl

theorem writeLoop_ends (priv : Bool) (ms : List Member) : ∀ mt, ∀ i ∈ (writeLoop priv mt ms).1, i.ends = false := by
  induction ms with
  | nil => intro mt i hi; cases hi
  | cons m ms ih =>
    intro mt i hi
    cases m with
    | var name ls => exact ih _ i hi
    | other => exact ih _ i hi
    | field f =>
      rw [writeLoop] at hi
      split at hi
      · exact ih _ i hi
      · split at hi
        · exact ih _ i hi
        · simp only [List.mem_append, List.mem_singleton] at hi
          rcases hi with ((hi | hi) | rfl) | hi
          · exact condition_ends _ i hi
          · exact padding_ends _ i hi
          · rfl
          · exact ih _ i hi

theorem readLoop_ends (priv : Bool) (ms : List Member) : ∀ mt, ∀ i ∈ (readLoop priv mt ms).1, i.ends = false := by
  induction ms with
  | nil => intro mt i hi; cases hi
  | cons m ms ih =>
    intro mt i hi
    cases m with
    | var name ls => exact ih _ i hi
    | other => exact ih _ i hi
    | field f =>
      rw [readLoop] at hi
      split at hi
      · exact ih _ i hi
      · simp only at hi
        split at hi
        · simp only [List.mem_append, List.mem_singleton] at hi
          rcases hi with ((hi | hi) | rfl) | hi
          · exact condition_ends _ i hi
          · exact padding_ends _ i hi
          · rfl
          · exact ih _ i hi
        · simp only [List.mem_append] at hi
          rcases hi with (hi | hi) | hi
          · exact condition_ends _ i hi
          · exact padding_ends _ i hi
          · exact ih _ i hi

theorem writeBody_ends (cfg : Config) (tu : TU) (n : Node) : ∀ i ∈ writeBody cfg tu n, i.ends = false := by
  intro i hi
  simp only [writeBody, List.mem_append, List.mem_map, List.mem_singleton] at hi
  rcases hi with ((⟨_, _, rfl⟩ | hi) | rfl) | ((hi | hi) | hi)
  · rfl
  · split at hi <;> simp at hi
    subst hi; rfl
  · rfl
  · exact writeLoop_ends _ _ _ i hi
  · exact conclude_ends _ i hi
  · split at hi <;> simp at hi
    subst hi; rfl

theorem readBody_ends (cfg : Config) (tu : TU) (n : Node) : ∀ i ∈ readBody cfg tu n, i.ends = false := by
  intro i hi
  simp only [readBody, List.mem_append, List.mem_map, List.mem_singleton] at hi
  rcases hi with ((⟨_, _, rfl⟩ | hi) | rfl) | ((hi | hi) | (hi | rfl))
  · rfl
  · split at hi <;> simp at hi
    subst hi; rfl
  · rfl
  · exact readLoop_ends _ _ _ i hi
  · exact conclude_ends _ i hi
  · split at hi <;> simp at hi
    subst hi; rfl
  · rfl

theorem functionsFrom_binaryClass (cfg : Config) (tu : TU) (wf : tu.WellFormed) (n : Node) (rest : List Item) :
    functionsFrom none (binaryClass cfg tu (findRelevantClasses cfg tu) (entry cfg tu n) ++ rest)
      = binaryFns cfg tu n ++ functionsFrom none rest := by
  rw [binaryClass_eq cfg tu wf]
  unfold binaryFns
  by_cases hd : (tu.cls n.cls).hasDefaultCtor = true
  · simp only [hd, ↓reduceIte, List.cons_append, List.nil_append, List.append_assoc]
    rw [functionsFrom_skip _ _ rfl, functionsFrom_fn _ .write (tu.cls n.cls).qname _ _ _ rfl rfl (writeBody_ends cfg tu n)]
    rw [functionsFrom_fn _ .read (tu.cls n.cls).qname _ _ _ rfl rfl (readBody_ends cfg tu n)]
  · simp only [hd, List.cons_append, List.nil_append, List.append_assoc]
    rw [functionsFrom_skip _ _ rfl]
    erw [functionsFrom_fn _ .write (tu.cls n.cls).qname _ _ _ rfl rfl (writeBody_ends cfg tu n)]
    rfl

theorem functions_generateBinary (cfg : Config) (tu : TU) (wf : tu.WellFormed) :
    functions (generateBinary cfg tu) = (wanted cfg tu).flatMap (binaryFns cfg tu) := by
  unfold functions generateBinary
  simp only
  by_cases hE : wanted cfg tu = []
  · rw [findRelevantClasses_eq cfg tu wf, hE]; rfl
  · rw [if_neg (by rw [findRelevantClasses_eq cfg tu wf]; simpa using hE)]
    rw [List.cons_append, List.nil_append, List.cons_append, functionsFrom_skip _ _ rfl]
    conv => lhs; rw [findRelevantClasses_eq cfg tu wf]
    rw [functionsFrom_flatMap _ (binaryFns cfg tu) (entry cfg tu)]
    · simp [functionsFrom, Item.opens]
    · intro n rest
      have := functionsFrom_binaryClass cfg tu wf n rest
      rwa [findRelevantClasses_eq cfg tu wf] at this

/-! ## What the functions do -/

/-- the version call of a class -/
noncomputable def versionCalls (cfg : Config) (tu : TU) (c : ClassId) : List Call :=
  if (versionName cfg tu c).isEmpty then [] else [.version (versionName cfg tu c)]

def always (c : Call) : Guard × Call := (⟨0, 0⟩, c)

theorem filterMap_base (bs : List Str) (g : Str → Item) (h : ∀ q, (g q).call = some (.base q)) :
    (bs.map g).filterMap Item.call = bs.map .base := by
  rw [List.filterMap_map]
  simp [Function.comp_def, h]

theorem compile_writeBody (cfg : Config) (tu : TU) (n : Node) :
    compileFrom none (writeBody cfg tu n) = some (((wantedBases cfg tu n.cls).map Call.base ++ versionCalls cfg tu n.cls).map always
      ++ (guarded (writes (canWritePrivate (tu.cls n.cls))) {} (tu.cls n.cls).members).map fun gf => (gf.1, .member gf.2.name)) := by
  unfold writeBody
  simp only
  rw [compileFrom_plain]
  · have hmt : ({} : Tracking).Ok := rfl
    have := writeLoop_compile (canWritePrivate (tu.cls n.cls))
      (if (wantedBases cfg tu n.cls).isEmpty && !(writeLoop (canWritePrivate (tu.cls n.cls)) {} (tu.cls n.cls).members).2.membersWritten
        then [Item.writeVoid] else []) (tu.cls n.cls).members {} hmt
    rw [show ({} : Tracking).cur = none from rfl] at this
    rw [this, compile_plain _ (by intro i hi; split at hi <;> simp at hi; subst hi; rfl)]
    have h0 : (if (wantedBases cfg tu n.cls).isEmpty && !(writeLoop (canWritePrivate (tu.cls n.cls)) {} (tu.cls n.cls).members).2.membersWritten
        then [Item.writeVoid] else []).filterMap Item.call = [] := by split <;> rfl
    rw [h0]
    simp only [Option.map_some, List.map_nil, List.append_nil, Option.some.injEq]
    congr 1
    rw [List.filterMap_append, List.filterMap_append, filterMap_base _ _ (fun _ => rfl)]
    unfold versionCalls
    split <;> simp [Item.call, always, Function.comp_def]
  · intro i hi
    simp only [List.mem_append, List.mem_map, List.mem_singleton] at hi
    rcases hi with (⟨_, _, rfl⟩ | hi) | rfl
    · rfl
    · split at hi <;> simp at hi
      subst hi; rfl
    · rfl

theorem compile_readBody (cfg : Config) (tu : TU) (n : Node) :
    compileFrom none (readBody cfg tu n) = some (((wantedBases cfg tu n.cls).map Call.base ++ versionCalls cfg tu n.cls).map always
      ++ (guarded (writes (canReadPrivate (tu.cls n.cls))) {} (tu.cls n.cls).members).map fun gf => (gf.1, .member gf.2.name)) := by
  unfold readBody
  simp only
  rw [compileFrom_plain]
  · have hmt : ({} : Tracking).Ok := rfl
    have := readLoop_compile (canReadPrivate (tu.cls n.cls))
      ((if (wantedBases cfg tu n.cls).isEmpty && !(readLoop (canReadPrivate (tu.cls n.cls)) {} (tu.cls n.cls).members).2.membersWritten
        then [Item.readVoid] else []) ++ [.readReturn]) (tu.cls n.cls).members {} hmt
    rw [show ({} : Tracking).cur = none from rfl] at this
    rw [this, compile_plain _ (by
      intro i hi
      rcases List.mem_append.1 hi with hi | hi
      · split at hi <;> simp at hi
        subst hi; rfl
      · simp at hi; subst hi; rfl)]
    have h0 : ((if (wantedBases cfg tu n.cls).isEmpty && !(readLoop (canReadPrivate (tu.cls n.cls)) {} (tu.cls n.cls).members).2.membersWritten
        then [Item.readVoid] else []) ++ [Item.readReturn]).filterMap Item.call = [] := by split <;> rfl
    rw [h0]
    simp only [Option.map_some, List.map_nil, List.append_nil, Option.some.injEq]
    congr 1
    rw [List.filterMap_append, List.filterMap_append, filterMap_base _ _ (fun _ => rfl)]
    unfold versionCalls
    split <;> simp [Item.call, always, Function.comp_def]
  · intro i hi
    simp only [List.mem_append, List.mem_map, List.mem_singleton] at hi
    rcases hi with (⟨_, _, rfl⟩ | hi) | rfl
    · rfl
    · split at hi <;> simp at hi
      subst hi; rfl
    · rfl

/-- members handled by the binary code for a version -/
noncomputable def binaryMembers (c : Class) (priv : Prop) (v : Nat) : List Str :=
  membersWith c fun pre f => f.isConst = false ∧ (priv ∨ f.isPublic = true) ∧ InVersion (markers pre) v

theorem guarded_members (c : Class) (priv : Bool) (P : Prop) (hP : priv = true ↔ P) (v : Nat) :
    ((guarded (writes priv) {} c.members).filter fun gf => gf.1.holds v).map (fun gf => gf.2.name) = binaryMembers c P v := by
  unfold binaryMembers
  rw [membersWith_eq, guarded_scan (writes priv) v c.members [] {} InEffect.nil]
  congr 2
  funext pre f
  simp only [writes, Bool.and_eq_true, Bool.not_eq_true', Bool.or_eq_true, hP, and_assoc]

theorem exec_guarded (v : Nat) (body : List Item) (cs : List Call) (gs : List (Guard × FieldD))
    (h : compileFrom none body = some (cs.map always ++ gs.map fun gf => (gf.1, .member gf.2.name))) :
    exec v body = some (cs ++ ((gs.filter fun gf => gf.1.holds v).map (fun gf => gf.2.name)).map .member) := by
  have := exec_of_compile v body none _ h
  unfold exec
  rw [this]
  congr 1
  rw [List.filter_append, List.map_append]
  congr 1
  · rw [List.filter_eq_self.2 (by
      intro a ha
      obtain ⟨c, -, rfl⟩ := List.mem_map.1 ha
      exact holds_zero v)]
    simp [always, Function.comp_def]
  · rw [List.filter_map, List.map_map, List.map_map]
    rfl

theorem exec_writeBody (cfg : Config) (tu : TU) (n : Node) (v : Nat) :
    exec v (writeBody cfg tu n) = some ((wantedBases cfg tu n.cls).map Call.base ++ versionCalls cfg tu n.cls
      ++ (binaryMembers (tu.cls n.cls) (Befriends (tu.cls n.cls) (lit "ReflectiveRapidJSON::BinaryReflector::writeCustomType")) v).map .member) := by
  rw [exec_guarded v _ _ _ (compile_writeBody cfg tu n), guarded_members _ (canWritePrivate _) _ (befriends_iff _ _)]

theorem exec_readBody (cfg : Config) (tu : TU) (n : Node) (v : Nat) :
    exec v (readBody cfg tu n) = some ((wantedBases cfg tu n.cls).map Call.base ++ versionCalls cfg tu n.cls
      ++ (binaryMembers (tu.cls n.cls) (Befriends (tu.cls n.cls) (lit "ReflectiveRapidJSON::BinaryReflector::readCustomType")) v).map .member) := by
  rw [exec_guarded v _ _ _ (compile_readBody cfg tu n), guarded_members _ (canReadPrivate _) _ (befriends_iff _ _)]

end Verif.Gen
