import Verif.Lemmas.GenCppActs

/-!
# Code generator: functions in the generated text
-/

namespace Verif.Gen.Cpp

set_option maxRecDepth 100000

theorem stmts_append (lookup : List Str → Str) (k : FnKind) (a b : List Stmt) :
    stmts lookup k (a ++ b) = (stmts lookup k a).bind fun x => (stmts lookup k b).map (x ++ ·) := by
  induction a with
  | nil => simp [stmts]
  | cons s a ih =>
    rw [List.cons_append, stmts, stmts, ih]
    cases stmt lookup k s with
    | none => rfl
    | some x =>
      cases stmts lookup k a with
      | none => rfl
      | some y =>
        simp only [Option.bind_some, Option.map_some]
        cases stmts lookup k b <;> simp

theorem simpleStmts_append (lookup : List Str → Str) (k : FnKind) (a b : List Stmt) :
    simpleStmts lookup k (a ++ b) = (simpleStmts lookup k a).bind fun x => (simpleStmts lookup k b).map (x ++ ·) := by
  induction a with
  | nil => simp [simpleStmts]
  | cons s a ih =>
    cases s with
    | block _ _ => rfl
    | simple ts =>
      rw [List.cons_append, simpleStmts, simpleStmts, ih]
      cases simpleStmt lookup k ts with
      | none => rfl
      | some x =>
        cases simpleStmts lookup k a with
        | none => rfl
        | some y =>
          simp only [Option.bind_some, Option.map_some]
          cases simpleStmts lookup k b <;> simp

/-- the pieces are statements of a function of the specified kind doing `acts` -/
def Body (lookup : List Str → Str) (k : FnKind) (is : List Item) (acts : List (Cond × Act)) : Prop :=
  ∃ ss, Parses (is.flatMap itemToks) ss ∧ stmts lookup k ss = some acts

theorem Body.nil {lookup k} : Body lookup k [] [] := ⟨[], .nil, rfl⟩

theorem Body.app {lookup k a b x y} (h : Body lookup k a x) (h' : Body lookup k b y) : Body lookup k (a ++ b) (x ++ y) := by
  obtain ⟨s, h1, h2⟩ := h
  obtain ⟨s', h1', h2'⟩ := h'
  exact ⟨s ++ s', by rw [List.flatMap_append]; exact h1.app h1', by rw [stmts_append, h2, h2']; rfl⟩

theorem occurs_flat {k i} (h : occurs k i = true) : flat i = true := by
  cases k <;> cases i <;> first | rfl | cases h

theorem Body.items {lookup k} (is : List Item) (h : ∀ i ∈ is, Item.CppOk i ∧ occurs k i = true) :
    Body lookup k is ((is.flatMap itemActs).map fun a => (Cpp.always, a)) := by
  induction is with
  | nil => exact .nil
  | cons i is ih =>
    obtain ⟨h1, h2⟩ := h i (by simp)
    have : Body lookup k [i] ((itemActs i).map fun a => (Cpp.always, a)) :=
      ⟨itemStmts i, by simpa using parse_item i h1 (occurs_flat h2), stmts_item lookup k i h1 h2⟩
    have := this.app (ih fun j hj => h j (by simp [hj]))
    simpa using this

/-! ## Conditions -/

def condOf (g : Guard) : Cond := ⟨g.asOf, if g.untilV = 0 then none else some g.untilV⟩

theorem condOf_holds (g : Guard) (v : Nat) : (condOf g).Holds v ↔ g.holds v = true := by
  unfold condOf Cond.Holds Guard.holds
  by_cases h : g.untilV = 0
  · by_cases h' : g.asOf = 0 <;> simp [h, h']
  · by_cases h' : g.asOf = 0 <;> simp [h, h']

/-- a decidable statement about literals -/
local macro "cl!" : tactic => `(tactic| (simp only [reduceCode, reduceLit, scope] <;> decide +kernel))

theorem condToks_inner (a u : Nat) : Inner (condToks a u) := by
  have p : inner (.sym (lit ")")) = true := by decide
  unfold condToks
  split
  · exact Inner.append (by cl!) (.word (.cons p .nil))
  · split
    · exact Inner.append (by cl!) (.word (.cons p .nil))
    · exact Inner.append (by cl!) (.word (Inner.append (by cl!) (.word (.cons p .nil))))

theorem asCond_ok {a u : Nat} (h : a ≠ 0 ∨ u ≠ 0) : asCond (condToks a u) = some (condOf ⟨a, u⟩) := by
  unfold asCond condToks condOf
  by_cases ha : a = 0
  · have hu : u ≠ 0 := h.resolve_left fun h => h ha
    rw [if_pos ha, after_none (by cl!), after_app]
    simp [decimal_natText, ha, hu]
  · rw [if_neg ha]
    by_cases hu : u = 0
    · rw [if_pos hu, after_app]
      simp [decimal_natText, hu]
    · rw [if_neg hu, after_app]
      have e : code "&& version <=" = [.sym (lit "&&"), .word (lit "version"), .sym (lit "<=")] := by cl!
      have : after (code "&& version <=") (code "&& version <=" ++ [.word (natText u), .sym (lit ")")]) = some [.word (natText u), .sym (lit ")")] :=
        after_app _ _
      rw [e] at this ⊢
      simp only [List.cons_append, List.nil_append] at this ⊢
      rw [this]
      simp [decimal_natText, hu]

/-- what a call of the existing reading of pieces is in the text -/
def actOf : Call → Act
  | .member n => .field n
  | _ => .returnVersion

/-- pieces in a loop over the members -/
def inLoop (k : FnKind) : Item → Prop
  | .writeMember _ => k = .write
  | .readMember _ => k = .read
  | .padding => k = .write ∨ k = .read
  | .ifVersion _ _ | .endIf => True
  | _ => False

/-- `Body` for pieces which may be preceded by the beginning of a condition -/
def Loop (lookup : List Str → Str) (k : FnKind) (is : List Item) (cur : Option Guard) (l : List (Guard × Call)) : Prop :=
  match cur with
  | none => Body lookup k is (l.map fun gc => (condOf gc.1, actOf gc.2))
  | some g => (g.asOf ≠ 0 ∨ g.untilV ≠ 0) → ∀ body as, simpleStmts lookup k body = some as → ∃ ss',
      (∀ hd ss up rest, parseFrom ⟨[], (condToks g.asOf g.untilV, body) :: (hd, ss) :: up⟩ (is.flatMap itemToks ++ rest)
        = parseFrom ⟨[], (hd, ss ++ ss') :: up⟩ rest) ∧
      stmts lookup k ss' = some ((as.map fun a => (condOf g, a)) ++ l.map fun gc => (condOf gc.1, actOf gc.2))

theorem loop {lookup k} (is : List Item) (hi : ∀ i ∈ is, Item.CppOk i ∧ inLoop k i) :
    ∀ (cur : Option Guard) (l : List (Guard × Call)), compileFrom cur is = some l → Loop lookup k is cur l := by
  induction is with
  | nil =>
    intro cur l h
    cases cur with
    | none => simp [compileFrom] at h; subst h; exact .nil
    | some g => simp [compileFrom] at h
  | cons i is ih =>
    have ih := ih fun j hj => hi j (by simp [hj])
    obtain ⟨hok, hl⟩ := hi i (by simp)
    intro cur l h
    -- a piece which is a statement or nothing
    have main : ∀ c, i.call = c → (∀ cur, compileFrom cur (i :: is) = match c with
          | none => compileFrom cur is
          | some c => (compileFrom cur is).map ((cur.getD ⟨0, 0⟩, c) :: ·)) → occurs k i = true →
        (itemActs i = match c with | none => [] | some c => [actOf c]) →
        (simpleStmts lookup k (itemStmts i) = some (itemActs i)) →
        Loop lookup k (i :: is) cur l := by
      intro c hc hcomp ho hacts hss
      rw [hcomp] at h
      obtain ⟨l', hl', hll⟩ : ∃ l', compileFrom cur is = some l' ∧
          l.map (fun gc => (condOf gc.1, actOf gc.2)) = ((itemActs i).map fun a => (condOf (cur.getD ⟨0, 0⟩), a)) ++ l'.map fun gc => (condOf gc.1, actOf gc.2) := by
        cases c with
        | none => exact ⟨l, h, by rw [hacts]; rfl⟩
        | some c =>
          simp only [Option.map_eq_some_iff] at h
          obtain ⟨l', h', rfl⟩ := h
          exact ⟨l', h', by rw [hacts]; rfl⟩
      have ih := ih cur l' hl'
      cases cur with
      | none =>
        simp only [Loop] at ih ⊢
        rw [hll]
        have := (Body.items (lookup := lookup) [i] (by simp [hok, ho])).app ih
        simpa [condOf, Cpp.always] using this
      | some g =>
        simp only [Loop] at ih ⊢
        intro hg body as hb
        obtain ⟨ss', h1, h2⟩ := ih hg (body ++ itemStmts i) (as ++ itemActs i) (by rw [simpleStmts_append, hb, hss]; rfl)
        refine ⟨ss', fun hd ss up rest => ?_, ?_⟩
        · rw [List.flatMap_cons, List.append_assoc, parse_item i hok (occurs_flat ho), h1]
        · rw [h2, hll]; simp
    cases i with
    | ifVersion a u =>
      cases cur with
      | some g => cases h
      | none =>
        have h : compileFrom (some ⟨a, u⟩) is = some l := h
        obtain ⟨ss', h1, h2⟩ := ih _ l h hok [] [] rfl
        refine ⟨ss', fun hd ss up rest => ?_, by rw [h2]; rfl⟩
        rw [List.flatMap_cons]
        simp only [itemToks, List.append_assoc, List.cons_append, List.nil_append]
        rw [parse_open (condToks_inner a u)]
        exact h1 hd ss up rest
    | endIf =>
      cases cur with
      | none => cases h
      | some g =>
        have h : compileFrom none is = some l := h
        intro hg body as hb
        obtain ⟨ss', h1, h2⟩ := ih none l h
        refine ⟨.block (condToks g.asOf g.untilV) body :: ss', fun hd ss up rest => ?_, ?_⟩
        · rw [List.flatMap_cons]
          simp only [itemToks, List.cons_append, List.nil_append]
          rw [parse_close, h1]
          simp
        · rw [stmts, h2, stmt]
          have hk : condToks g.asOf g.untilV ≠ code "if (errors)" := by
            intro e
            have := asCond_ok hg
            rw [e, show asCond (code "if (errors)") = none by cl!] at this
            cases this
          have hv : condToks g.asOf g.untilV ≠ code "if constexpr (V::enabled)" := by
            intro e
            have := asCond_ok hg
            rw [e, show asCond (code "if constexpr (V::enabled)") = none by cl!] at this
            cases this
          rw [if_neg fun h => hk h.1, if_neg hv, asCond_ok hg, Option.bind_some, hb]
          rfl
    | padding =>
      refine main none rfl (fun cur => rfl) ?_ rfl rfl
      rcases hl with rfl | rfl <;> rfl
    | writeMember n =>
      obtain rfl := hl
      refine main (some (.member n)) rfl (fun cur => rfl) rfl rfl ?_
      obtain ⟨ts, e, hts⟩ := simple_field lookup (k := .write) (i := .writeMember n) ⟨_, .inl ⟨rfl, rfl⟩⟩
      rw [e]; simp [simpleStmts, hts]
    | readMember n =>
      obtain rfl := hl
      refine main (some (.member n)) rfl (fun cur => rfl) rfl rfl ?_
      obtain ⟨ts, e, hts⟩ := simple_field lookup (k := .read) (i := .readMember n) ⟨_, .inr ⟨rfl, rfl⟩⟩
      rw [e]; simp [simpleStmts, hts]
    | _ => exact hl.elim

end Verif.Gen.Cpp
