import Verif.Lemmas.GenClasses

/-!
# Code generator: structure of the output
-/

namespace Verif.Gen

open Classical

/-! ## Functions -/

theorem functionsFrom_body (f : Fn) (body : List Item) (e : Item) (rest : List Item) (he : e.ends = true)
    (h : ∀ i ∈ body, i.ends = false) :
    functionsFrom (some f) (body ++ e :: rest) = { f with body := f.body ++ body } :: functionsFrom none rest := by
  induction body generalizing f with
  | nil => simp [functionsFrom, he]
  | cons i is ih =>
    have hi := h i (by simp)
    rw [List.cons_append, functionsFrom]
    simp only [hi, Bool.false_eq_true, ↓reduceIte]
    rw [ih _ (fun j hj => h j (by simp [hj]))]
    simp

theorem functionsFrom_fn (o : Item) (k : FnKind) (q : Str) (body : List Item) (e : Item) (rest : List Item)
    (ho : o.opens = some (k, q)) (he : e.ends = true) (h : ∀ i ∈ body, i.ends = false) :
    functionsFrom none (o :: (body ++ e :: rest)) = ⟨k, q, body⟩ :: functionsFrom none rest := by
  rw [functionsFrom]; simp only [ho]
  rw [functionsFrom_body _ _ _ _ he h]; rfl

theorem functionsFrom_skip (i : Item) (rest : List Item) (h : i.opens = none) :
    functionsFrom none (i :: rest) = functionsFrom none rest := by
  rw [functionsFrom]; simp only [h]

/-! ### JSON -/

noncomputable def pushed (c : Class) : List Str :=
  (c.fields.filter fun f => befriends c (lit "ReflectiveRapidJSON::JsonReflector::push") || f.isPublic).map FieldD.name

noncomputable def pulled (c : Class) : List Str :=
  ((c.fields.filter fun f => !f.isConst).filter fun f =>
    befriends c (lit "ReflectiveRapidJSON::JsonReflector::pull") || f.isPublic).map FieldD.name

noncomputable def pushBody (cfg : Config) (tu : TU) (n : Node) : List Item :=
  let bases := wantedBases cfg tu n.cls
  let ms := pushed (tu.cls n.cls)
  bases.map .pushBase ++ [.pushComment] ++ ms.map .pushMember ++ (if bases.isEmpty && ms.isEmpty then [.pushVoid] else [])

noncomputable def pullBody (cfg : Config) (tu : TU) (n : Node) : List Item :=
  let bases := wantedBases cfg tu n.cls
  let ms := pulled (tu.cls n.cls)
  bases.map .pullBase ++ [.pullSetRecord (tu.cls n.cls).qname] ++ ms.map .pullMember
    ++ (if bases.isEmpty && ms.isEmpty then [.pullVoid] else []) ++ [.pullRestore]

noncomputable def jsonFns (cfg : Config) (tu : TU) (n : Node) : List Fn :=
  ⟨.push, (tu.cls n.cls).qname, pushBody cfg tu n⟩
    :: (if (tu.cls n.cls).hasDefaultCtor then [⟨.pull, (tu.cls n.cls).qname, pullBody cfg tu n⟩] else [])

theorem jsonClass_eq (cfg : Config) (tu : TU) (wf : tu.WellFormed) (n : Node) :
    jsonClass cfg tu (findRelevantClasses cfg tu) (entry cfg tu n) =
      [.classComment (tu.cls n.cls).qname, .pushOpen (cfg.visibility.getD []) (tu.cls n.cls).qname] ++ pushBody cfg tu n ++ [.funEnd]
        ++ (if (tu.cls n.cls).hasDefaultCtor then
          [.pullOpen (cfg.visibility.getD []) (tu.cls n.cls).qname] ++ pullBody cfg tu n ++ [.funEndBlank] else []) := by
  unfold jsonClass
  simp only [findBases_eq cfg tu wf]
  by_cases hd : (tu.cls n.cls).hasDefaultCtor = true <;>
    simp [hd, pushBody, pullBody, pushed, pulled, entry, List.append_assoc]

theorem pushBody_ends (cfg : Config) (tu : TU) (n : Node) : ∀ i ∈ pushBody cfg tu n, i.ends = false := by
  intro i hi
  simp only [pushBody, List.mem_append, List.mem_map, List.mem_singleton] at hi
  rcases hi with ((⟨_, _, rfl⟩ | rfl) | ⟨_, _, rfl⟩) | hi
  · rfl
  · rfl
  · rfl
  · split at hi
    · simp at hi; subst hi; rfl
    · cases hi

theorem pullBody_ends (cfg : Config) (tu : TU) (n : Node) : ∀ i ∈ pullBody cfg tu n, i.ends = false := by
  intro i hi
  simp only [pullBody, List.mem_append, List.mem_map, List.mem_singleton] at hi
  rcases hi with (((⟨_, _, rfl⟩ | rfl) | ⟨_, _, rfl⟩) | hi) | rfl
  · rfl
  · rfl
  · rfl
  · split at hi
    · simp at hi; subst hi; rfl
    · cases hi
  · rfl

theorem functionsFrom_jsonClass (cfg : Config) (tu : TU) (wf : tu.WellFormed) (n : Node) (rest : List Item) :
    functionsFrom none (jsonClass cfg tu (findRelevantClasses cfg tu) (entry cfg tu n) ++ rest)
      = jsonFns cfg tu n ++ functionsFrom none rest := by
  rw [jsonClass_eq cfg tu wf]
  unfold jsonFns
  by_cases hd : (tu.cls n.cls).hasDefaultCtor = true
  · simp only [hd, ↓reduceIte, List.cons_append, List.nil_append, List.append_assoc]
    rw [functionsFrom_skip _ _ rfl, functionsFrom_fn _ .push (tu.cls n.cls).qname _ _ _ rfl rfl (pushBody_ends cfg tu n)]
    rw [functionsFrom_fn _ .pull (tu.cls n.cls).qname _ _ _ rfl rfl (pullBody_ends cfg tu n)]
  · simp only [hd, List.cons_append, List.nil_append, List.append_assoc]
    rw [functionsFrom_skip _ _ rfl]
    erw [functionsFrom_fn _ .push (tu.cls n.cls).qname _ _ _ rfl rfl (pushBody_ends cfg tu n)]
    rfl

theorem functionsFrom_flatMap (g : Relevant → List Item) (F : Node → List Fn) (e : Node → Relevant)
    (h : ∀ n rest, functionsFrom none (g (e n) ++ rest) = F n ++ functionsFrom none rest) (ns : List Node) (rest : List Item) :
    functionsFrom none ((ns.map e).flatMap g ++ rest) = ns.flatMap F ++ functionsFrom none rest := by
  induction ns with
  | nil => rfl
  | cons n ns ih =>
    simp only [List.map_cons, List.flatMap_cons, List.append_assoc]
    rw [h, ih]

theorem functions_generateJson (cfg : Config) (tu : TU) (wf : tu.WellFormed) :
    functions (generateJson cfg tu) = (wanted cfg tu).flatMap (jsonFns cfg tu) := by
  unfold functions generateJson
  simp only
  by_cases hE : wanted cfg tu = []
  · rw [findRelevantClasses_eq cfg tu wf, hE]; rfl
  · rw [if_neg (by rw [findRelevantClasses_eq cfg tu wf]; simpa using hE)]
    rw [List.cons_append, List.nil_append, List.cons_append, functionsFrom_skip _ _ rfl]
    conv => lhs; rw [findRelevantClasses_eq cfg tu wf]
    rw [functionsFrom_flatMap _ (jsonFns cfg tu) (entry cfg tu)]
    · simp [functionsFrom, Item.opens]
    · intro n rest
      have := functionsFrom_jsonClass cfg tu wf n rest
      rwa [findRelevantClasses_eq cfg tu wf] at this

/-! ## Calls together with the conditions around them -/

/-- the calls of a function body with the version condition under which they are made -/
def compileFrom (cur : Option Guard) : List Item → Option (List (Guard × Call))
  | [] => if cur = none then some [] else none
  | .ifVersion a u :: is => match cur with
    | none => compileFrom (some ⟨a, u⟩) is
    | some _ => none
  | .endIf :: is => match cur with
    | none => none
    | some _ => compileFrom none is
  | i :: is => match i.call with
    | none => compileFrom cur is
    | some c => (compileFrom cur is).map ((cur.getD ⟨0, 0⟩, c) :: ·)

theorem holds_zero (v : Nat) : Guard.holds ⟨0, 0⟩ v = true := rfl

theorem exec_of_compile (v : Nat) (is : List Item) : ∀ (cur : Option Guard) (l : List (Guard × Call)),
    compileFrom cur is = some l →
    execFrom v (match cur with | none => [] | some g => [g.holds v]) is
      = some ((l.filter fun gc => gc.1.holds v).map Prod.snd) := by
  induction is with
  | nil =>
    intro cur l h
    cases cur with
    | none => simp [compileFrom] at h; subst h; rfl
    | some g => simp [compileFrom] at h
  | cons i is ih =>
    have main : ∀ (cur : Option Guard) (l : List (Guard × Call)),
        (match i.call with
          | none => compileFrom cur is
          | some c => (compileFrom cur is).map ((cur.getD ⟨0, 0⟩, c) :: ·)) = some l →
        (match i.call with
          | none => execFrom v (match cur with | none => [] | some g => [g.holds v]) is
          | some c => if (match cur with | none => [] | some g => [g.holds v]).all id then
              (execFrom v (match cur with | none => [] | some g => [g.holds v]) is).map (c :: ·)
            else execFrom v (match cur with | none => [] | some g => [g.holds v]) is)
          = some ((l.filter fun gc => gc.1.holds v).map Prod.snd) := by
      intro cur l h
      cases hc : i.call with
      | none => rw [hc] at h; simpa using ih cur l h
      | some c =>
        rw [hc] at h
        simp only [Option.map_eq_some_iff] at h
        obtain ⟨l', h, rfl⟩ := h
        have h := ih cur l' h
        simp only
        rw [h]
        cases cur with
        | none => rw [List.filter_cons_of_pos (by exact holds_zero v)]; rfl
        | some g =>
          by_cases hg : g.holds v = true
          · simp [hg]
          · simp [hg]
    intro cur l h
    cases i with
    | ifVersion a u =>
      cases cur with
      | none => exact ih _ _ h
      | some g => cases h
    | endIf =>
      cases cur with
      | none => cases h
      | some g => exact ih none l h
    | _ => exact main cur l h

/-- pieces which are neither the beginning nor the end of an `if` -/
def Item.plain : Item → Bool
  | .ifVersion _ _ => false
  | .endIf => false
  | _ => true

theorem compileFrom_plain (cur : Option Guard) (is rest : List Item) (h : ∀ i ∈ is, i.plain = true) :
    compileFrom cur (is ++ rest) = (compileFrom cur rest).map ((is.filterMap Item.call).map (fun c => (cur.getD ⟨0, 0⟩, c)) ++ ·) := by
  induction is with
  | nil => simp
  | cons i is ih =>
    have hi := h i (by simp)
    have ih := ih fun j hj => h j (by simp [hj])
    have : compileFrom cur (i :: (is ++ rest)) = (match i.call with
        | none => compileFrom cur (is ++ rest)
        | some c => (compileFrom cur (is ++ rest)).map ((cur.getD ⟨0, 0⟩, c) :: ·)) := by
      cases i <;> first | rfl | cases hi
    rw [List.cons_append, this, ih]
    cases hc : i.call with
    | none => simp [hc]
    | some c =>
      rw [List.filterMap_cons_some hc]
      cases compileFrom cur rest <;> simp

theorem compile_plain (is : List Item) (h : ∀ i ∈ is, i.plain = true) :
    compileFrom none is = some ((is.filterMap Item.call).map fun c => (⟨0, 0⟩, c)) := by
  have := compileFrom_plain none is [] h
  rw [List.append_nil] at this
  rw [this]; simp [compileFrom]

theorem exec_plain (v : Nat) (is : List Item) (h : ∀ i ∈ is, i.plain = true) : exec v is = some (is.filterMap Item.call) := by
  have := exec_of_compile v is none _ (compile_plain is h)
  unfold exec
  rw [this]
  congr 1
  rw [List.filter_eq_self.2 (by
    intro a ha
    obtain ⟨c, -, rfl⟩ := List.mem_map.1 ha
    exact holds_zero v)]
  simp [Function.comp_def]

/-! ## Data members in declaration order -/

/-- `membersWith`, one declaration after the other -/
def scan (g : List Member → Member → Option β) (pre : List Member) : List Member → List β
  | [] => []
  | m :: ms => (g pre m).toList ++ scan g (pre ++ [m]) ms

theorem scan_eq (g : List Member → Member → Option β) (pre ms : List Member) :
    (List.range ms.length).filterMap (fun i : Nat => (ms[i]?).bind (g (pre ++ ms.take i))) = scan g pre ms := by
  induction ms generalizing pre with
  | nil => rfl
  | cons m ms ih =>
    rw [List.length_cons, List.range_succ_eq_map, scan]
    have : (List.map Nat.succ (List.range ms.length)).filterMap (fun i : Nat => ((m :: ms)[i]?).bind (g (pre ++ (m :: ms).take i)))
        = scan g (pre ++ [m]) ms := by
      rw [← ih, List.filterMap_map]
      congr 1
      funext i
      simp
    rw [← this]
    cases hg : g pre m with
    | none => rw [List.filterMap_cons_none (by simpa using hg)]; rfl
    | some b => rw [List.filterMap_cons_some (b := b) (by simpa using hg)]; rfl

/-- what `membersWith` does with one declaration -/
noncomputable def pick (p : List Member → FieldD → Prop) (pre : List Member) : Member → Option Str
  | .field f => if p pre f then some f.name else none
  | _ => none

theorem membersWith_eq (c : Class) (p : List Member → FieldD → Prop) : membersWith c p = scan (pick p) [] c.members := by
  rw [← scan_eq]
  unfold membersWith
  congr 1
  funext i
  cases c.members[i]? with
  | none => rfl
  | some m => cases m <;> simp [pick]

theorem scan_fields (p : FieldD → Prop) (pre ms : List Member) : scan (pick fun _ => p) pre ms
    = ((ms.filterMap fun
        | .field f => some f
        | _ => none).filter fun f => decide (p f)).map FieldD.name := by
  induction ms generalizing pre with
  | nil => rfl
  | cons m ms ih =>
    rw [scan, ih]
    cases m with
    | field f =>
      by_cases h : p f
      · simp [pick, h]
      · simp [pick, h]
    | var _ _ => simp [pick]
    | other => simp [pick]

theorem membersWith_fields (c : Class) (p : FieldD → Prop) :
    membersWith c (fun _ => p) = (c.fields.filter fun f => decide (p f)).map FieldD.name := by
  rw [membersWith_eq]; exact scan_fields p [] c.members

theorem befriends_iff (c : Class) (fn : Str) : befriends c fn = true ↔ Befriends c fn := by
  simp [befriends, Befriends]

end Verif.Gen
