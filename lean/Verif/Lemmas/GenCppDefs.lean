import Verif.Lemmas.GenCppFns

/-!
# Code generator: definitions in the generated text
-/

namespace Verif.Gen.Cpp

set_option maxRecDepth 100000

/-- a decidable statement about literals -/
local macro "cl!" : tactic => `(tactic| (simp only [reduceCode, reduceLit, scope] <;> decide +kernel))

theorem after_none_tail {t : Tok} {a : Tok} {p q : List Tok} (h : differ p q = true) (x : List Tok) : after (a :: p) (t :: (q ++ x)) = none := by
  have := after_none h x
  unfold after at this ⊢
  split at this
  · cases this
  · rename_i hn
    rw [if_neg]
    intro h'
    simp only [List.isPrefixOf_cons₂, Bool.and_eq_true] at h'
    exact hn h'.2

def sigName : FnKind → List Tok
  | .push => code "push <"
  | .pull => code "pull <"
  | .write => code "writeCustomType <"
  | .read => code "readCustomType <"

def sigType : FnKind → Str
  | .read => lit "BinaryVersion"
  | _ => lit "void"

theorem signature_eq (k : FnKind) : signature k = .word (sigType k) :: sigName k := by
  cases k <;> (unfold signature sigName sigType; cl!)

theorem sig_differ (k k' : FnKind) : differ (sigName k) (signature k') = true := by
  cases k <;> cases k' <;> (unfold sigName signature; cl!)

theorem sig_differ_name (k k' : FnKind) : differ (signature k) (sigName k') = true := by
  cases k <;> cases k' <;> (unfold sigName signature; cl!)

theorem sig_differ_ne {k k' : FnKind} (h : k ≠ k') : differ (signature k) (signature k') = true := by
  cases k <;> cases k' <;> first | exact absurd rfl h | (unfold signature; cl!)

theorem afterTemplate_ok (k : FnKind) (v : Str) (x : List Tok) :
    afterTemplate (signature k) (code "template <>" ++ (visToks v ++ (signature k ++ x))) = some x := by
  unfold afterTemplate
  rw [after_app]
  simp only
  unfold visToks
  by_cases hv : v = []
  · rw [if_pos hv, List.nil_append, after_app]
  · have := after_none_tail (t := .word v) (a := .word (sigType k)) (sig_differ k k) x
    rw [← signature_eq] at this
    rw [if_neg hv]
    simp only [List.cons_append, List.nil_append]
    rw [this]
    simp only
    rw [after_app]

theorem afterTemplate_none {k k' : FnKind} (h : k ≠ k') (v : Str) (x : List Tok) :
    afterTemplate (signature k) (code "template <>" ++ (visToks v ++ (signature k' ++ x))) = none := by
  unfold afterTemplate
  rw [after_app]
  simp only
  unfold visToks
  by_cases hv : v = []
  · rw [if_pos hv, List.nil_append, after_none (sig_differ_ne h)]
    rw [signature_eq k', List.cons_append]
    simp only
    rw [after_none (sig_differ_name k k')]
  · have := after_none_tail (t := .word v) (a := .word (sigType k)) (sig_differ k k') x
    rw [← signature_eq] at this
    rw [if_neg hv]
    simp only [List.cons_append, List.nil_append]
    rw [this]
    simp only
    rw [after_none (sig_differ_ne h)]

theorem gt_ne_scope : Tok.sym (lit ">") ≠ scope := by decide

theorem fnHead_ok (lookup : List Str → Str) (k : FnKind) (v : Str) {q : Str} (hq : QualifiedName q) :
    fnHead lookup k (headToks k v q) = some q := by
  unfold fnHead headToks
  rw [afterTemplate_ok]
  simp only [bind, Option.bind_some, List.cons_append]
  rw [className_name lookup hq gt_ne_scope]
  simp only [Option.bind_some]
  rw [if_pos]
  congr 2
  rw [show scope :: (toks q ++ Tok.sym (lit ">") :: params k (scope :: toks q)) =
    (scope :: toks q) ++ Tok.sym (lit ">") :: params k (scope :: toks q) from rfl, List.length_append, Nat.add_sub_cancel, List.take_left']
  rfl

theorem fnHead_none (lookup : List Str → Str) {k k' : FnKind} (h : k ≠ k') (v q : Str) :
    fnHead lookup k (headToks k' v q) = none := by
  unfold fnHead headToks
  rw [afterTemplate_none h]; rfl

theorem params_inner (k : FnKind) {q : List Tok} (hq : Inner q) : Inner (params k q) := by
  cases k
  · exact (Inner.append (by cl!) hq).append (by cl!)
  · exact (Inner.append (by cl!) hq).append (by cl!)
  · exact (Inner.append (by cl!) hq).append (by cl!)
  · exact (Inner.append (by cl!) hq).append (by cl!)

theorem headToks_inner (k : FnKind) (v : Str) {q : Str} (hq : QualifiedName q) : Inner (headToks k v q) := by
  have h : Inner (scope :: toks q) := .cons (by decide) (name_inner hq)
  refine Inner.append (by cl!) (Inner.append ?_ (Inner.append ?_ (h.append (.cons (by decide) (params_inner k h)))))
  · unfold visToks; split
    · exact .nil
    · exact .word .nil
  · cases k <;> (unfold signature; cl!)

/-- the pieces are definitions -/
def Defs (lookup : List Str → Str) (kinds : List FnKind) (is : List Item) (ds : List Def) : Prop :=
  ∃ ss, Parses (is.flatMap itemToks) ss ∧ fnDefs lookup kinds ss = some ds

theorem fnDefs_append (lookup : List Str → Str) (kinds : List FnKind) (a b : List Stmt) {x y} (ha : fnDefs lookup kinds a = some x)
    (hb : fnDefs lookup kinds b = some y) : fnDefs lookup kinds (a ++ b) = some (x ++ y) := by
  induction a generalizing x with
  | nil => simp [fnDefs] at ha; subst ha; simpa using hb
  | cons s a ih =>
    cases s with
    | simple _ => cases ha
    | block h body =>
      rw [fnDefs] at ha
      rw [List.cons_append, fnDefs]
      split at ha
      · simp only [Option.map_eq_some_iff] at ha
        obtain ⟨x', ha, rfl⟩ := ha
        rw [ih ha]
        rfl
      · cases ha

theorem Defs.nil {lookup kinds} : Defs lookup kinds [] [] := ⟨[], .nil, rfl⟩

theorem Defs.app {lookup kinds a b x y} (h : Defs lookup kinds a x) (h' : Defs lookup kinds b y) : Defs lookup kinds (a ++ b) (x ++ y) := by
  obtain ⟨s, h1, h2⟩ := h
  obtain ⟨s', h1', h2'⟩ := h'
  exact ⟨s ++ s', by rw [List.flatMap_append]; exact h1.app h1', fnDefs_append lookup kinds _ _ h2 h2'⟩

theorem Defs.flatMap {lookup kinds} {α} (g : α → List Item) (d : α → List Def) (xs : List α)
    (h : ∀ x ∈ xs, Defs lookup kinds (g x) (d x)) : Defs lookup kinds (xs.flatMap g) (xs.flatMap d) := by
  induction xs with
  | nil => exact .nil
  | cons x xs ih =>
    rw [List.flatMap_cons, List.flatMap_cons]
    exact (h x (by simp)).app (ih fun y hy => h y (by simp [hy]))

theorem Defs.comment {lookup kinds q} : Defs lookup kinds [.classComment q] [] := ⟨[], .nil, rfl⟩

/-- A function definition. -/
theorem Defs.fn {lookup : List Str → Str} {kinds : List FnKind} {k : FnKind} (hk : kinds.filter (· = k) = [k]) {o e : Item} {v q : Str} (hq : QualifiedName q)
    (ho : itemToks o = headToks k v q ++ [opn]) (he : itemToks e = [cls]) {body : List Item} {acts} (hb : Body lookup k body acts) :
    Defs lookup kinds (o :: (body ++ [e])) [⟨k, q, acts⟩] := by
  obtain ⟨ss, h1, h2⟩ := hb
  refine ⟨[.block (headToks k v q) ss], ?_, ?_⟩
  · refine (Parses.block (headToks_inner k v hq) h1).cast ?_
    simp [ho, he]
  · have hf : ∀ k', fnDef lookup k' (headToks k v q) ss = if k' = k then some ⟨k, q, acts⟩ else none := by
      intro k'
      unfold fnDef
      split
      · rename_i hk; subst hk
        rw [fnHead_ok lookup k' v hq, Option.bind_some, h2]; rfl
      · rename_i hk
        rw [fnHead_none lookup hk]; rfl
    have : kinds.filterMap (fun k' => fnDef lookup k' (headToks k v q) ss) = [⟨k, q, acts⟩] := by
      simp only [hf]
      have : (kinds.filter (· = k)).map (fun _ => (⟨k, q, acts⟩ : Def)) = [⟨k, q, acts⟩] := by rw [hk]; rfl
      rw [← this]
      clear hk hf this
      induction kinds with
      | nil => rfl
      | cons a l ih => by_cases ha : a = k <;> simp [ha, ih]
    rw [fnDefs, this]
    rfl

/-- the whole file -/
theorem readCode_ok {lookup : List Str → Str} {kinds : List FnKind} {ns : String} {is : List Item} {ds : List Def}
    (hns : code ns = [.word (lit ns)]) (hid : Identifier (lit ns)) (hi : ∀ i ∈ is, Item.CppOk i) (h : Defs lookup kinds is ds) :
    readCode lookup ns kinds (renderAll ([.nsOpen (lit ns)] ++ is ++ [.nsClose (lit ns)])) = some ds := by
  obtain ⟨ss, h1, h2⟩ := h
  have hl := render_all ([.nsOpen (lit ns)] ++ is ++ [.nsClose (lit ns)]) (by
    intro i hi'
    simp only [List.mem_append, List.mem_singleton] at hi'
    rcases hi' with (rfl | hi') | rfl
    · exact hid
    · exact hi i hi'
    · exact hid)
  unfold readCode lex
  rw [hl]
  simp only [Option.bind_some, finish, Option.map_some, List.append_nil]
  have hp : parse (([Item.nsOpen (lit ns)] ++ is ++ [Item.nsClose (lit ns)]).flatMap itemToks) =
      some [.block (code "namespace ReflectiveRapidJSON") [.block (code "namespace" ++ [.word (lit ns)]) ss]] := by
    have hb : Parses (([Item.nsOpen (lit ns)] ++ is ++ [Item.nsClose (lit ns)]).flatMap itemToks)
        [.block (code "namespace ReflectiveRapidJSON") [.block (code "namespace" ++ [.word (lit ns)]) ss]] := by
      refine (Parses.block (h := code "namespace ReflectiveRapidJSON") (by cl!) (Parses.block (h := code "namespace" ++ [.word (lit ns)])
        (Inner.append (by cl!) (.word .nil)) h1)).cast ?_
      simp [itemToks]
    have := hb [] [] [] []
    rw [List.append_nil] at this
    unfold parse
    rw [this]
    rfl
  rw [hp]
  simp only
  rw [if_pos ⟨trivial, by rw [hns]⟩, h2]

end Verif.Gen.Cpp
