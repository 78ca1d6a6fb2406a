import Verif.Lemmas.GenCppCode

/-!
# Code generator: what the statements in the generated text do
-/

namespace Verif.Gen.Cpp

set_option maxRecDepth 100000

theorem after_app (p x : List Tok) : after p (p ++ x) = some x := by
  rw [after, if_pos (by simp)]; simp

theorem after_self (p : List Tok) : after p p = some [] := by
  have := after_app p []; rwa [List.append_nil] at this

/-- the beginnings differ -/
def differ (p q : List Tok) : Bool := decide (p.take q.length ≠ q.take p.length)

theorem after_none {p q : List Tok} (h : differ p q = true) (x : List Tok) : after p (q ++ x) = none := by
  rw [after, if_neg]
  intro hp
  rw [List.isPrefixOf_iff_prefix] at hp
  obtain ⟨y, hy⟩ := hp
  have h1 : p = (q ++ x).take p.length := by rw [← hy]; simp
  have : p.take q.length = q.take p.length := by
    have h2 : p.take q.length = ((q ++ x).take p.length).take q.length := by rw [← h1]
    rw [h2, List.take_take, Nat.min_comm, ← List.take_take]; simp
  exact (of_decide_eq_true h) this

theorem takePath_path {ws : List Str} (h0 : ws ≠ []) {s : Str} {r : List Tok} (hs : Tok.sym s ≠ scope) :
    takePath (pathToks ws ++ .sym s :: r) = (ws, .sym s :: r) := by
  induction ws with
  | nil => exact absurd rfl h0
  | cons w ws ih =>
    cases ws with
    | nil => simp [pathToks, takePath, hs]
    | cons w' ws =>
      have ih := ih (by simp)
      simp only [pathToks, List.cons_append] at ih ⊢
      rw [scope, takePath, ih]
      simp [scope]

theorem className_name (lookup : List Str → Str) {q} (h : QualifiedName q) {s : Str} {r : List Tok} (hs : Tok.sym s ≠ scope) :
    className lookup (scope :: (toks q ++ .sym s :: r)) = some (q, .sym s :: r) := by
  obtain ⟨ws, h0, -, rfl, e⟩ := h.path
  rw [e, className, show scope :: (pathToks ws ++ .sym s :: r) = [scope] ++ (pathToks ws ++ .sym s :: r) from rfl, after_app]
  simp only [takePath_path h0 hs, h0, ↓reduceIte]

theorem asBase_ok (lookup : List Str → Str) (b r : String) {q} (h : QualifiedName q) {s : Str} {r' : List Tok}
    (hr : code r = .sym s :: r') (hs : Tok.sym s ≠ scope) : asBase lookup b r (baseToks b q r) = some [.base q] := by
  unfold asBase baseToks
  rw [after_app, hr]
  simp only [bind, Option.bind_some, className_name lookup h hs, ↓reduceIte]

theorem asBase_none (lookup : List Str → Str) (b r : String) {q x} (h : differ (code b) q = true) : asBase lookup b r (q ++ x) = none := by
  unfold asBase
  rw [after_none h]; rfl

theorem asMember_ok (b r : String) (n : Str) : asMember b r (memberToks b n r) = some [.member n n] := by
  unfold asMember memberToks
  rw [after_app]
  simp

theorem asMember_none (b r : String) {q x} (h : differ (code b) q = true) : asMember b r (q ++ x) = none := by
  unfold asMember
  rw [after_none h]

theorem asField_ok (b : String) (n : Str) : asField b (fieldToks b n) = some [.field n] := by
  unfold asField fieldToks
  rw [after_app]
  simp

theorem asField_none (b : String) {q x} (h : differ (code b) q = true) : asField b (q ++ x) = none := by
  unfold asField
  rw [after_none h]

theorem asUsing_ok (t : Str) : asUsing (usingToks t) = some [.versioning (toks t)] := by
  unfold asUsing usingToks
  rw [after_app]
  simp

theorem asUsing_none {q x} (h : differ (code "using V = Versioning<") q = true) : asUsing (q ++ x) = none := by
  unfold asUsing
  rw [after_none h]

/-- what a piece does -/
def itemActs : Item → List Act
  | .pushBase q | .pullBase q | .writeBase q | .readBase q => [.base q]
  | .pushMember n | .pullMember n => [.member n n]
  | .writeMember n | .readMember n => [.field n]
  | .pullSetRecord q => [.setRecord q]
  | .pullRestore => [.restoreRecord]
  | .writeVersion t => [.versioning (toks t), .writeVersion]
  | .readVersion t q => [.versioning (toks t), .readVersion q]
  | .readReturn => [.returnVersion]
  | _ => []

/-- the pieces occurring in functions of a kind (apart from conditions) -/
def occurs : FnKind → Item → Bool
  | .push, .pushBase _ | .push, .pushComment | .push, .pushMember _ | .push, .pushVoid => true
  | .pull, .pullBase _ | .pull, .pullSetRecord _ | .pull, .pullMember _ | .pull, .pullVoid | .pull, .pullRestore => true
  | .write, .writeBase _ | .write, .writeVersion _ | .write, .writeComment | .write, .writeMember _ | .write, .writeVoid | .write, .padding => true
  | .read, .readBase _ | .read, .readVersion _ _ | .read, .readComment | .read, .readMember _ | .read, .readVoid | .read, .padding | .read, .readReturn => true
  | _, _ => false

/-- a decidable statement about literals -/
local macro "cl!" : tactic => `(tactic| (simp only [reduceCode, reduceLit, scope] <;> decide +kernel))

theorem oneOf_none {l} : oneOf (none :: l) = oneOf l := rfl
theorem oneOf_some {a l} : oneOf (some a :: l) = some a := rfl

theorem asVoid_ok {s : String} {w : Str} (h : code s = code "(void)" ++ [.word w]) : asVoid (code s) = some [] := by
  rw [asVoid, h, after_app]

theorem amp_ne_scope : Tok.sym (lit "&") ≠ scope := by decide

theorem simple_field (lookup : List Str → Str) {k : FnKind} {i : Item} (h : ∃ n, k = .write ∧ i = .writeMember n ∨ k = .read ∧ i = .readMember n) :
    ∃ ts, itemStmts i = [.simple ts] ∧ simpleStmt lookup k ts = some (itemActs i) := by
  obtain ⟨n, ⟨rfl, rfl⟩ | ⟨rfl, rfl⟩⟩ := h
  · refine ⟨_, rfl, ?_⟩
    simp only [simpleStmt]
    rw [asField_ok, fieldToks, asBase_none _ _ _ (by cl!)]; rfl
  · refine ⟨_, rfl, ?_⟩
    simp only [simpleStmt]
    rw [asField_ok, fieldToks, asBase_none _ _ _ (by cl!)]; rfl

theorem code_nil (s : String) : code s = code s ++ [] := by simp

theorem stmts_item (lookup : List Str → Str) (k : FnKind) (i : Item) (h : Item.CppOk i) (ho : occurs k i = true) :
    stmts lookup k (itemStmts i) = some ((itemActs i).map fun a => (always, a)) := by
  have one : ∀ {ts as}, simpleStmt lookup k ts = some as → stmts lookup k [.simple ts] = some (as.map fun a => (always, a)) := by
    intro ts as h
    simp [stmts, stmt, h]
  have cons : ∀ {s ss a b}, stmt lookup k s = some a → stmts lookup k ss = some b → stmts lookup k (s :: ss) = some (a ++ b) := by
    intro s ss a b h1 h2
    simp [stmts, h1, h2]
  have smp : ∀ {ts as}, simpleStmt lookup k ts = some as → stmt lookup k (.simple ts) = some (as.map fun a => (always, a)) := by
    intro ts as h
    simp [stmt, h]
  cases k <;> cases i <;> first | (cases ho; done) | skip
  -- push
  · refine one ?_
    simp only [simpleStmt]
    rw [asBase_ok lookup _ _ h (s := lit "&") (r' := code ">(reflectable), value, allocator)") (by cl!) amp_ne_scope]
    rfl
  · rfl
  · refine one ?_
    simp only [simpleStmt]
    rw [asMember_ok, memberToks, asBase_none _ _ _ (by cl!)]
    rfl
  · have v : ∀ s w, differ (code "push(static_cast<const") (code s) = true → differ (code "push(reflectable.") (code s) = true →
        code s = code "(void)" ++ [.word w] → stmt lookup .push (.simple (code s)) = some [] := by
      intro s w h1 h2 h3
      refine smp (as := []) ?_
      have e1 := asBase_none (x := []) lookup "push(static_cast<const" "&>(reflectable), value, allocator)" h1
      have e2 := asMember_none (x := []) "push(reflectable." ", value, allocator)" h2
      rw [List.append_nil] at e1 e2
      simp only [simpleStmt]
      rw [e1, e2, asVoid_ok h3]
      rfl
    exact cons (b := []) (v "(void)reflectable" (lit "reflectable") (by cl!) (by cl!) (by cl!))
      (cons (b := []) (v "(void)value" (lit "value") (by cl!) (by cl!) (by cl!))
        (cons (b := []) (v "(void)allocator" (lit "allocator") (by cl!) (by cl!) (by cl!)) rfl))
  -- pull
  · refine one ?_
    simp only [simpleStmt]
    rw [asBase_ok lookup _ _ h (s := lit "&") (r' := code ">(reflectable), value, errors)") (by cl!) amp_ne_scope]
    rfl
  · rename_i q
    refine cons (a := []) (b := [(always, .setRecord q)]) (smp (as := []) ?_) ?_
    · have e1 := asBase_none (x := []) lookup "pull(static_cast<" "&>(reflectable), value, errors)"
        (q := code "const char *previousRecord = nullptr") (by cl!)
      have e2 := asMember_none (x := []) "pull(reflectable." ", value, errors)" (q := code "const char *previousRecord = nullptr") (by cl!)
      rw [List.append_nil] at e1 e2
      simp only [simpleStmt]
      rw [e1, e2, if_pos trivial]
      rfl
    · refine cons (a := [(always, .setRecord q)]) (b := []) ?_ rfl
      rw [stmt, if_pos ⟨rfl, rfl⟩, asSetRecord, if_pos rfl, recordToks, after_app]
      rfl
  · refine one ?_
    simp only [simpleStmt]
    rw [asMember_ok, memberToks, asBase_none _ _ _ (by cl!)]
    rfl
  · have v : ∀ s w, differ (code "pull(static_cast<") (code s) = true → differ (code "pull(reflectable.") (code s) = true →
        code s ≠ code "const char *previousRecord = nullptr" →
        code s = code "(void)" ++ [.word w] → stmt lookup .pull (.simple (code s)) = some [] := by
      intro s w h1 h2 h2' h3
      refine smp (as := []) ?_
      have e1 := asBase_none (x := []) lookup "pull(static_cast<" "&>(reflectable), value, errors)" h1
      have e2 := asMember_none (x := []) "pull(reflectable." ", value, errors)" h2
      rw [List.append_nil] at e1 e2
      simp only [simpleStmt]
      rw [e1, e2, asVoid_ok h3, if_neg h2']
      rfl
    exact cons (b := []) (v "(void)reflectable" (lit "reflectable") (by cl!) (by cl!) (by cl!) (by cl!))
      (cons (b := []) (v "(void)value" (lit "value") (by cl!) (by cl!) (by cl!) (by cl!)) rfl)
  · refine cons (a := [(always, .restoreRecord)]) (b := []) ?_ rfl
    rw [stmt, if_pos ⟨rfl, rfl⟩, asRestoreRecord, if_pos rfl]
    rfl
  -- write
  · refine one ?_
    simp only [simpleStmt]
    rw [asBase_ok lookup _ _ h (s := lit "&") (r' := code ">(customObject), version)") (by cl!) amp_ne_scope]
    rfl
  · rename_i t
    refine cons (a := [(always, .versioning (toks t))]) (b := [(always, .writeVersion)]) (smp (as := [.versioning (toks t)]) ?_) ?_
    · simp only [simpleStmt]
      rw [asUsing_ok, usingToks, asBase_none _ _ _ (by cl!), asField_none _ (by cl!)]
      rfl
    · refine cons (a := [(always, .writeVersion)]) (b := []) ?_ rfl
      rw [stmt, if_neg (fun h => nomatch h.2), if_pos rfl, asVersion, if_pos rfl]
      rfl
  · rfl
  · obtain ⟨ts, e, h⟩ := simple_field lookup (k := .write) (i := .writeMember _) ⟨_, .inl ⟨rfl, rfl⟩⟩
    rw [e]; exact one h
  · have v : ∀ s w, differ (code "serializer.write(static_cast<const") (code s) = true → differ (code "serializer.write(customObject.") (code s) = true →
        differ (code "using V = Versioning<") (code s) = true →
        code s = code "(void)" ++ [.word w] → stmt lookup .write (.simple (code s)) = some [] := by
      intro s w h1 h2 h2' h3
      refine smp (as := []) ?_
      have e1 := asBase_none (x := []) lookup "serializer.write(static_cast<const" "&>(customObject), version)" h1
      have e2 := asField_none (x := []) "serializer.write(customObject." h2
      have e3 := asUsing_none (x := []) h2'
      rw [List.append_nil] at e1 e2 e3
      simp only [simpleStmt]
      rw [e1, e2, e3, asVoid_ok h3]
      rfl
    exact cons (b := []) (v "(void)serializer" (lit "serializer") (by cl!) (by cl!) (by cl!) (by cl!))
      (cons (b := []) (v "(void)customObject" (lit "customObject") (by cl!) (by cl!) (by cl!) (by cl!))
        (cons (b := []) (v "(void)version" (lit "version") (by cl!) (by cl!) (by cl!) (by cl!)) rfl))
  · rfl
  -- read
  · refine one ?_
    simp only [simpleStmt]
    rw [asBase_ok lookup _ _ h (s := lit "&") (r' := code ">(customObject), version)") (by cl!) amp_ne_scope]
    rfl
  · rename_i t q
    refine cons (a := [(always, .versioning (toks t))]) (b := [(always, .readVersion q)]) (smp (as := [.versioning (toks t)]) ?_) ?_
    · simp only [simpleStmt]
      rw [asUsing_ok, usingToks, asBase_none _ _ _ (by cl!), asField_none _ (by cl!)]
      rfl
    · refine cons (a := [(always, .readVersion q)]) (b := []) ?_ rfl
      rw [stmt, if_neg (fun h => nomatch h.2), if_pos rfl, asVersion]
      rw [assertToks, after_app]
      rfl
  · rfl
  · obtain ⟨ts, e, h⟩ := simple_field lookup (k := .read) (i := .readMember _) ⟨_, .inr ⟨rfl, rfl⟩⟩
    rw [e]; exact one h
  · have v : ∀ s w, differ (code "deserializer.read(static_cast<") (code s) = true → differ (code "deserializer.read(customObject.") (code s) = true →
        differ (code "using V = Versioning<") (code s) = true → code s ≠ code "return version" →
        code s = code "(void)" ++ [.word w] → stmt lookup .read (.simple (code s)) = some [] := by
      intro s w h1 h2 h2' h2'' h3
      refine smp (as := []) ?_
      have e1 := asBase_none (x := []) lookup "deserializer.read(static_cast<" "&>(customObject), version)" h1
      have e2 := asField_none (x := []) "deserializer.read(customObject." h2
      have e3 := asUsing_none (x := []) h2'
      rw [List.append_nil] at e1 e2 e3
      simp only [simpleStmt]
      rw [e1, e2, e3, asVoid_ok h3, if_neg h2'']
      rfl
    exact cons (b := []) (v "(void)deserializer" (lit "deserializer") (by cl!) (by cl!) (by cl!) (by cl!) (by cl!))
      (cons (b := []) (v "(void)customObject" (lit "customObject") (by cl!) (by cl!) (by cl!) (by cl!) (by cl!)) rfl)
  · refine one ?_
    have e1 := asBase_none (x := []) lookup "deserializer.read(static_cast<" "&>(customObject), version)" (q := code "return version") (by cl!)
    have e2 := asField_none (x := []) "deserializer.read(customObject." (q := code "return version") (by cl!)
    have e3 := asUsing_none (x := []) (q := code "return version") (by cl!)
    rw [List.append_nil] at e1 e2 e3
    simp only [simpleStmt]
    rw [e1, e2, e3, if_pos trivial]
    rfl
  · rfl

end Verif.Gen.Cpp
