import Verif.Spec.Dispatch

/-! # Which overloads are enabled for which types, and which calls compile -/

namespace Verif.Dispatch

variable {P : Program}

section marks
variable (h : Sane P)
include h

theorem Sane.std (T as) : P.treatAsMap (.std T as) = false ∧ P.treatAsMultiMap (.std T as) = false ∧
    P.treatAsSet (.std T as) = false ∧ P.treatAsMultiSet (.std T as) = false ∧ P.adaptedJson (.std T as) = false := by
  refine ⟨?_, ?_, ?_, ?_, ?_⟩ <;> rw [Bool.eq_false_iff] <;> intro e
  · obtain ⟨c, hc, -⟩ := h.map _ e; cases hc
  · obtain ⟨c, hc, -⟩ := h.multiMap _ e; cases hc
  · obtain ⟨c, hc, -⟩ := h.set _ e; cases hc
  · obtain ⟨c, hc, -⟩ := h.multiSet _ e; cases hc
  · obtain ⟨c, hc⟩ := h.adapted _ e; cases hc

theorem Sane.other {t : CppTy} (ht : ∀ c, t ≠ .cls c) : P.treatAsMap t = false ∧ P.treatAsMultiMap t = false ∧
    P.treatAsSet t = false ∧ P.treatAsMultiSet t = false ∧ P.adaptedJson t = false := by
  refine ⟨?_, ?_, ?_, ?_, ?_⟩ <;> rw [Bool.eq_false_iff] <;> intro e
  · obtain ⟨c, hc, -⟩ := h.map _ e; exact ht _ hc
  · obtain ⟨c, hc, -⟩ := h.multiMap _ e; exact ht _ hc
  · obtain ⟨c, hc, -⟩ := h.set _ e; exact ht _ hc
  · obtain ⟨c, hc, -⟩ := h.multiSet _ e; exact ht _ hc
  · obtain ⟨c, hc⟩ := h.adapted _ e; exact ht _ hc

/-- what is known about the marks of a class -/
theorem Sane.cls (c) : (P.iteratable c = false → P.treatAsMap (.cls c) = false ∧ P.treatAsMultiMap (.cls c) = false ∧
    P.treatAsSet (.cls c) = false ∧ P.treatAsMultiSet (.cls c) = false) := by
  intro hi
  refine ⟨?_, ?_, ?_, ?_⟩ <;> rw [Bool.eq_false_iff] <;> intro e
  · obtain ⟨c, hc, h'⟩ := h.map _ e; cases hc; simp [hi] at h'
  · obtain ⟨c, hc, h'⟩ := h.multiMap _ e; cases hc; simp [hi] at h'
  · obtain ⟨c, hc, h'⟩ := h.set _ e; cases hc; simp [hi] at h'
  · obtain ⟨c, hc, h'⟩ := h.multiSet _ e; cases hc; simp [hi] at h'
end marks

theorem enabled_nil : enabled [] = [] := rfl
theorem enabled_true (f fs) : enabled ((f, true) :: fs) = f :: enabled fs := rfl
theorem enabled_false (f fs) : enabled ((f, false) :: fs) = enabled fs := rfl

/-- kind of a class -/
inductive Kind where
  | plain | list | map | multiMap | set | multiSet

/-- the traits of a class, as far as they matter, by its kind -/
def HasKind (P : Program) (c : Nat) : Kind → Prop
  | .plain => P.iteratable c = false ∧ P.treatAsMap (.cls c) = false ∧ P.treatAsMultiMap (.cls c) = false ∧
    P.treatAsSet (.cls c) = false ∧ P.treatAsMultiSet (.cls c) = false
  | .list => P.iteratable c = true ∧ P.treatAsMap (.cls c) = false ∧ P.treatAsMultiMap (.cls c) = false ∧
    P.treatAsSet (.cls c) = false ∧ P.treatAsMultiSet (.cls c) = false
  | .map => P.iteratable c = true ∧ P.treatAsMap (.cls c) = true ∧ P.treatAsMultiMap (.cls c) = false ∧
    P.treatAsSet (.cls c) = false ∧ P.treatAsMultiSet (.cls c) = false
  | .multiMap => P.iteratable c = true ∧ P.treatAsMap (.cls c) = false ∧ P.treatAsMultiMap (.cls c) = true ∧
    P.treatAsSet (.cls c) = false ∧ P.treatAsMultiSet (.cls c) = false
  | .set => P.iteratable c = true ∧ P.treatAsMap (.cls c) = false ∧ P.treatAsMultiMap (.cls c) = false ∧
    P.treatAsSet (.cls c) = true ∧ P.treatAsMultiSet (.cls c) = false
  | .multiSet => P.iteratable c = true ∧ P.treatAsMap (.cls c) = false ∧ P.treatAsMultiMap (.cls c) = false ∧
    P.treatAsSet (.cls c) = false ∧ P.treatAsMultiSet (.cls c) = true

theorem Sane.kind (h : Sane P) (c) : ∃ k, HasKind P c k := by
  have h1 := h.cls c
  have h2 := h.once (.cls c)
  cases a : P.iteratable c
  · exact ⟨.plain, a, h1 a⟩
  · cases m : P.treatAsMap (.cls c) <;> cases mm : P.treatAsMultiMap (.cls c) <;> cases s : P.treatAsSet (.cls c) <;>
      cases ms : P.treatAsMultiSet (.cls c) <;> simp [m, mm, s, ms] at h2
    · exact ⟨.list, a, m, mm, s, ms⟩
    · exact ⟨.multiSet, a, m, mm, s, ms⟩
    · exact ⟨.set, a, m, mm, s, ms⟩
    · exact ⟨.multiMap, a, m, mm, s, ms⟩
    · exact ⟨.map, a, m, mm, s, ms⟩

/-- `T` is one of the text types -/
theorem isStdString_iff (t) : isStdString t = true ↔ t = .string := by
  constructor
  · intro h
    unfold isStdString at h
    split at h <;> first | rfl | cases h
  · rintro rfl; rfl
theorem isStdStringView_iff (t) : isStdStringView t = true ↔ t = .stringView := by
  constructor
  · intro h
    unfold isStdStringView at h
    split at h <;> first | rfl | cases h
  · rintro rfl; rfl
theorem isConstCharPtr_iff (t) : isConstCharPtr t = true ↔ t = .constCharPtr := by
  constructor
  · intro h
    unfold isConstCharPtr at h
    split at h <;> first | rfl | cases h
  · rintro rfl; rfl

/-! ## The candidates, type by type -/


/-- the overload of `push(…, Value &)` for a specialisation of a standard template -/
def pushStd (as : List CppTy) : Tmpl → List Fn
  | .basicString => if isStdString (.std .basicString as) then [.pushStr] else []
  | .basicStringView => if isStdStringView (.std .basicStringView as) then [.pushSView] else []
  | .vector | .list | .deque | .array | .set | .unorderedSet | .multiset | .unorderedMultiset => [.pushSized]
  | .forwardList => [.pushUnsized]
  | .map | .unorderedMap => [.pushMap]
  | .multimap | .unorderedMultimap => [.pushMultiMap]
  | .pair => [.pushPair]
  | .tuple => [.pushTuple]
  | .uniquePtr | .sharedPtr | .weakPtr | .optional => [.pushNullable]
  | .variant => [.pushVariant]

theorem pushValueFns_std (h : Sane P) (T as) : pushValueFns P (.std T as) = pushStd as T := by
  obtain ⟨h1, h2, h3, h4, h5⟩ := h.std T as
  cases T <;> cases hs : isStdString (.std .basicString as) <;> cases hv : isStdStringView (.std .basicStringView as) <;>
    simp [pushValueFns, enabled, jsonBuiltIn, isIntegral, isFloatingPoint, isPointer, isEnum, isArith, isStdString, isStdStringView,
      isConstCharPtr, spec, isIteratable, Tmpl.iteratable, hasSize, isMapOrHash, isMultiMapOrHash, isArrayOrSet, isVariant, pushStd,
      h1, h2, h3, h4, hs, hv] <;> simp_all [isStdString, isStdStringView]

/-- the overload of `push(…, Value &)` for an arithmetic type -/
def pushArith : Arith → List Fn
  | .schar | .uchar => [.pushInt8]
  | _ => [.pushNumber]

/-- simp set -/
macro "disp" "[" ls:Lean.Parser.Tactic.simpLemma,* "]" : tactic =>
  `(tactic| simp [pushValueFns, pullValueFns, pullArrayFns, jsonTypeFns, toDocumentFns, toJsonFns, fromJsonFns, writeFns, readFns,
      enabled, jsonBuiltIn, binBuiltIn, binNative, isIntegral, isFloatingPoint, isPointer, isEnum, isArith, isStdString,
      isStdStringView, isConstCharPtr, spec, isIteratable, Tmpl.iteratable, hasSize, isMapOrHash, isMultiMapOrHash, isArrayOrSet,
      isArray, isSet, isMultiSet, isVariant, isReservable, isResizable, isIteratableExceptString, isCString, isString, $ls,*])

theorem pushValueFns_arith (h : Sane P) (a) : pushValueFns P (.arith a) = pushArith a := by
  obtain ⟨h1, h2, h3, h4, h5⟩ := h.other (t := .arith a) (by simp)
  cases a <;> disp [pushArith, h1, h2, h3, h4]

theorem pushValueFns_enum (h : Sane P) (a) : pushValueFns P (.enum a) = [.pushEnum] := by
  obtain ⟨h1, h2, h3, h4, h5⟩ := h.other (t := .enum a) (by simp)
  disp [h1, h2, h3, h4]

theorem pushValueFns_ptr (h : Sane P) (b t) :
    pushValueFns P (.ptr b t) = if isConstCharPtr (.ptr b t) then [.pushCStr] else [] := by
  obtain ⟨h1, h2, h3, h4, h5⟩ := h.other (t := .ptr b t) (by simp)
  cases hc : isConstCharPtr (.ptr b t) <;>
  simp [pushValueFns, enabled, jsonBuiltIn, isIntegral, isFloatingPoint, isPointer, isEnum, isArith, isStdString,
      isStdStringView, spec, isIteratable, hasSize, isMapOrHash, isMultiMapOrHash, isArrayOrSet, isVariant, h1, h2, h3, h4, hc]

theorem pushValueFns_mono (h : Sane P) : pushValueFns P .monostate = [.pushCustom] := by
  obtain ⟨h1, h2, h3, h4, h5⟩ := h.other (t := .monostate) (by simp)
  disp [h1, h2, h3, h4]

/-- the overload of `push(…, Value &)` for a class -/
def pushCls (P : Program) (c : Nat) : Kind → List Fn
  | .plain => [.pushCustom]
  | .map => [.pushMap]
  | .multiMap => [.pushMultiMap]
  | _ => if P.hasSize c then [.pushSized] else [.pushUnsized]

theorem pushValueFns_cls {c k} (h : HasKind P c k) : pushValueFns P (.cls c) = pushCls P c k := by
  cases k <;> obtain ⟨h1, h2, h3, h4, h5⟩ := h <;> cases hs : P.hasSize c <;> disp [pushCls, h1, h2, h3, h4, h5, hs]

/-- `pull(…, const Value &)` -/
def pullStd (as : List CppTy) : Tmpl → List Fn
  | .basicString => if isStdString (.std .basicString as) then [.pullStr] else []
  | .basicStringView => if isStdStringView (.std .basicStringView as) then [.pullStrCheck] else []
  | .vector | .unorderedSet | .unorderedMultiset => [.pullReservable]
  | .list | .deque | .array | .set | .multiset | .forwardList => [.pullUnreservable]
  | .map | .unorderedMap => [.pullMap]
  | .multimap | .unorderedMultimap => [.pullMultiMap]
  | .pair => [.pullPair]
  | .tuple => [.pullTuple]
  | .uniquePtr => [.pullUniquePtr]
  | .sharedPtr => [.pullSharedPtr]
  | .optional => [.pullOptional]
  | .weakPtr => []
  | .variant => [.pullVariant]

theorem pullValueFns_std (h : Sane P) (T as) : pullValueFns P (.std T as) = pullStd as T := by
  obtain ⟨h1, h2, h3, h4, h5⟩ := h.std T as
  cases T <;> cases hs : isStdString (.std .basicString as) <;> cases hv : isStdStringView (.std .basicStringView as) <;>
    disp [pullStd, h1, h2, h3, h4, hs, hv] <;> simp_all [isStdString, isStdStringView]

def pullArith : Arith → List Fn
  | .schar | .uchar => [.pullInt8]
  | .bool => [.pullBool]
  | _ => [.pullNumber]

theorem pullValueFns_arith (h : Sane P) (a) : pullValueFns P (.arith a) = pullArith a := by
  obtain ⟨h1, h2, h3, h4, h5⟩ := h.other (t := .arith a) (by simp)
  cases a <;> disp [pullArith, h1, h2, h3, h4]

theorem pullValueFns_enum (h : Sane P) (a) : pullValueFns P (.enum a) = [.pullEnum] := by
  obtain ⟨h1, h2, h3, h4, h5⟩ := h.other (t := .enum a) (by simp)
  disp [h1, h2, h3, h4]

theorem pullValueFns_ptr (h : Sane P) (b t) :
    pullValueFns P (.ptr b t) = if isConstCharPtr (.ptr b t) then [.pullStrCheck] else [] := by
  obtain ⟨h1, h2, h3, h4, h5⟩ := h.other (t := .ptr b t) (by simp)
  cases hc : isConstCharPtr (.ptr b t) <;>
  simp [pullValueFns, enabled, jsonBuiltIn, isIntegral, isFloatingPoint, isPointer, isEnum, isArith, isStdString,
      isStdStringView, spec, isIteratable, isReservable, isMapOrHash, isMultiMapOrHash, isArrayOrSet, isVariant, h1, h2, h3, h4, hc]

theorem pullValueFns_mono (h : Sane P) : pullValueFns P .monostate = [.pullCustom] := by
  obtain ⟨h1, h2, h3, h4, h5⟩ := h.other (t := .monostate) (by simp)
  disp [h1, h2, h3, h4]

def pullCls (P : Program) (c : Nat) : Kind → List Fn
  | .plain => [.pullCustom]
  | .map => [.pullMap]
  | .multiMap => [.pullMultiMap]
  | _ => if P.reservable c then [.pullReservable] else [.pullUnreservable]

theorem pullValueFns_cls {c k} (h : HasKind P c k) : pullValueFns P (.cls c) = pullCls P c k := by
  cases k <;> obtain ⟨h1, h2, h3, h4, h5⟩ := h <;> cases hs : P.reservable c <;> disp [pullCls, h1, h2, h3, h4, h5, hs]

/-- `pull(…, ConstArray)` -/
def pullArrStd : Tmpl → List Fn
  | .basicStringView | .vector | .list | .deque | .array | .forwardList => [.pullIntoArray]
  | .set | .unorderedSet => [.pullIntoSet]
  | .multiset | .unorderedMultiset => [.pullIntoMultiSet]
  | _ => []

theorem pullArrayFns_std (h : Sane P) (T as) : pullArrayFns P (.std T as) = pullArrStd T := by
  obtain ⟨h1, h2, h3, h4, h5⟩ := h.std T as
  cases T <;> disp [pullArrStd, h1, h2, h3, h4]

def pullArrCls : Kind → List Fn
  | .list => [.pullIntoArray]
  | .set => [.pullIntoSet]
  | .multiSet => [.pullIntoMultiSet]
  | _ => []

theorem pullArrayFns_cls {c k} (h : HasKind P c k) : pullArrayFns P (.cls c) = pullArrCls k := by
  cases k <;> obtain ⟨h1, h2, h3, h4, h5⟩ := h <;> disp [pullArrCls, h1, h2, h3, h4, h5]

theorem pullArrayFns_other (h : Sane P) {t : CppTy} (h1 : ∀ c, t ≠ .cls c) (h2 : ∀ T as, t ≠ .std T as) :
    pullArrayFns P t = [] := by
  obtain ⟨h1, h2, h3, h4, h5⟩ := h.other h1
  cases t <;> simp_all [pullArrayFns, enabled, isArray, isSet, isMultiSet, spec, isIteratable]

/-- `BinarySerializer::write` -/
def writeStd : Tmpl → List Fn
  | .basicString | .forwardList => []
  | .pair => [.writePair]
  | .uniquePtr | .optional => [.writeUniqueOrOptional]
  | .sharedPtr => [.writeShared]
  | .variant => [.writeVariant]
  | .tuple | .weakPtr => [.writeClass]
  | _ => [.writeIteratable]

theorem writeFns_std (T as) : writeFns P (.std T as) = writeStd T := by
  cases T <;> disp [writeStd]

theorem writeFns_cls (c) : writeFns P (.cls c) =
    if P.iteratable c then (if P.hasSize c then [.writeIteratable] else []) else [.writeClass] := by
  cases hi : P.iteratable c <;> cases hs : P.hasSize c <;> disp [hi, hs]

/-- `BinaryDeserializer::read` -/
def readStd : Tmpl → List Fn
  | .basicString => []
  | .pair => [.readPair]
  | .uniquePtr => [.readUnique]
  | .optional => [.readOptional]
  | .sharedPtr => [.readShared]
  | .variant => [.readVariant]
  | .tuple | .weakPtr => [.readClass]
  | .vector | .list | .deque | .forwardList => [.readResizable]
  | .map | .unorderedMap | .multimap | .unorderedMultimap => [.readMap]
  | _ => [.readOther]

theorem readFns_std (h : Sane P) (T as) : readFns P (.std T as) = readStd T := by
  obtain ⟨h1, h2, h3, h4, h5⟩ := h.std T as
  cases T <;> disp [readStd, h1, h2, h3, h4]

def readCls (P : Program) (c : Nat) : Kind → List Fn
  | .plain => [.readClass]
  | .map | .multiMap => [.readMap]
  | .list => if P.resizable c then [.readResizable] else [.readOther]
  | .set | .multiSet => [.readOther]

theorem readFns_cls {c k} (h : HasKind P c k) : readFns P (.cls c) = readCls P c k := by
  cases k <;> obtain ⟨h1, h2, h3, h4, h5⟩ := h <;> cases hs : P.resizable c <;> disp [readCls, h1, h2, h3, h4, h5, hs]


/-- What it means for a call to compile. -/
def Meaning (P : Program) : Call → Prop
  | .pushValue t | .pushArray t | .pushMember t | .pushObject t => CanToJson P t
  | .pushPointee t => CanToJson P t ∧ ∀ as, t ≠ .std .variant as
  | .pullValue t | .pullArray t | .pullObject t => CanFromJson P t
  | .write t | .writeVersion t | .writeCustom t => CanToBinary P t
  | .read t | .readVersion t | .readCustom t => CanFromBinary P t
  | _ => True

theorem hasCharData_iff (k) : hasCharData k = true ↔ k ∈ textKeys := by
  constructor
  · intro h
    unfold hasCharData at h
    split at h <;> first | (cases h; done) | simp [textKeys]
  · intro h
    simp only [textKeys, List.mem_cons, List.mem_nil_iff, or_false] at h
    rcases h with rfl | rfl | rfl | rfl <;> rfl

theorem fromCString_iff (k) : fromCString k = true ↔ k ∈ cStringKeys := by
  constructor
  · intro h
    unfold fromCString at h
    split at h <;> first | (cases h; done) | simp [cStringKeys]
  · intro h
    simp only [cStringKeys, List.mem_cons, List.mem_nil_iff, or_false] at h
    rcases h with rfl | rfl | rfl | rfl <;> rfl

theorem isMonostate_iff (t : CppTy) : t.isMonostate = true ↔ t = .monostate := by
  cases t <;> simp [CppTy.isMonostate]

theorem push_sound (h : Sane P) {t f cs} (hf : pushValueFns P t = [f]) (hc : calls P t f = some cs)
    (ih : ∀ c' ∈ cs, Meaning P c') : CanToJson P t := by
  cases t with
  | arith a =>
    rw [pushValueFns_arith h] at hf
    cases a <;> simp [pushArith] at hf <;> subst hf <;> simp [calls, rapidJsonAccessor] at hc <;>
      first
      | exact .int8 (Or.inl rfl)
      | exact .int8 (Or.inr rfl)
      | exact .number (by decide)
  | enum u => exact .enum u
  | ptr b t =>
    rw [pushValueFns_ptr h] at hf
    split at hf
    · next e => exact .text (Or.inr (Or.inr ((isConstCharPtr_iff _).1 e)))
    · cases hf
  | monostate =>
    rw [pushValueFns_mono h] at hf
    cases hf
    simp only [calls, Option.some.injEq] at hc
    subst hc
    exact ih (.pushObject .monostate) (by simp)
  | cls c =>
    obtain ⟨k, hk⟩ := h.kind c
    rw [pushValueFns_cls hk] at hf
    have seq : pushCls P c k ≠ [.pushCustom] → pushCls P c k ≠ [.pushMap] → pushCls P c k ≠ [.pushMultiMap] →
        calls P (.cls c) f = some [.pushArray (P.elem c)] := by
      intro h1 h2 h3
      cases k <;> simp [pushCls] at h1 h2 h3 hf <;> split at hf <;> cases hf <;> rfl
    cases k
    case plain =>
      cases hf
      simp only [calls] at hc
      split at hc
      · next e => exact .cls hk.1 (Or.inl e)
      · cases hc
        exact ih (.pushObject (.cls c)) (by simp)
    case map =>
      cases hf
      simp only [calls, mapTys] at hc
      split at hc
      · next e =>
        cases hc
        exact .clsMap (Or.inl hk.2.1) ((hasCharData_iff _).1 e) (ih (.pushMember _) (by simp))
      · cases hc
    case multiMap =>
      cases hf
      simp only [calls, mapTys] at hc
      split at hc
      · next e =>
        cases hc
        exact .clsMap (Or.inr hk.2.2.1) ((hasCharData_iff _).1 e) (ih (.pushArray _) (by simp))
      · cases hc
    all_goals
      rw [seq (by simp only [pushCls]; split <;> simp) (by simp only [pushCls]; split <;> simp)
        (by simp only [pushCls]; split <;> simp)] at hc
      cases hc
      exact .clsList hk.1 hk.2.1 hk.2.2.1 (ih (.pushArray _) (by simp))
  | std T as =>
    rw [pushValueFns_std h] at hf
    have list : T ∈ lists ++ sets ++ [.forwardList, .array] → CanToJson P (.std T as) := by
      intro hT
      have : ∃ e, elemTy P (.std T as) = some e ∧ cs = [.pushArray e] ∧ as = [e] := by
        simp only [lists, sets, List.cons_append, List.nil_append, List.mem_cons, List.mem_nil_iff, or_false] at hT
        rcases hT with rfl | rfl | rfl | rfl | rfl | rfl | rfl | rfl | rfl <;>
          simp only [pushStd, List.cons.injEq, and_true] at hf <;> subst hf <;>
          match as, hc with
          | [e], hc => exact ⟨e, rfl, (Option.some.inj hc).symm, rfl⟩
      obtain ⟨e, -, rfl, rfl⟩ := this
      exact .list hT (ih (.pushArray e) (by simp))
    have map : T ∈ maps → CanToJson P (.std T as) := by
      intro hT
      have : ∃ k v, as = [k, v] ∧ hasCharData k = true ∧ (cs = [.pushArray v] ∨ cs = [.pushMember v]) := by
        simp only [maps, List.mem_cons, List.mem_nil_iff, or_false] at hT
        rcases hT with rfl | rfl | rfl | rfl <;>
          simp only [pushStd, List.cons.injEq, and_true] at hf <;> subst hf <;>
          match as, hc with
          | [k, v], hc =>
            simp only [calls, mapTys] at hc
            split at hc
            · next e => exact ⟨k, v, rfl, e, by
              have := Option.some.inj hc
              simp [← this]⟩
            · cases hc
      obtain ⟨k, v, rfl, hk, rfl | rfl⟩ := this
      · exact .map hT ((hasCharData_iff _).1 hk) (ih (.pushArray v) (by simp))
      · exact .map hT ((hasCharData_iff _).1 hk) (ih (.pushMember v) (by simp))
    have null : T ∈ nullables → CanToJson P (.std T as) := by
      intro hT
      have : ∃ a, as = [a] ∧ cs = [.pushPointee a] := by
        simp only [nullables, List.mem_cons, List.mem_nil_iff, or_false] at hT
        rcases hT with rfl | rfl | rfl <;>
          simp only [pushStd, List.cons.injEq, and_true] at hf <;> subst hf <;>
          match as, hc with
          | [a], hc => exact ⟨a, rfl, by simpa [calls, eq_comm] using hc⟩
      obtain ⟨a, rfl, rfl⟩ := this
      obtain ⟨h1, h2⟩ := ih (.pushPointee a) (by simp)
      exact .nullable hT h2 h1
    cases T
    case basicString =>
      simp only [pushStd] at hf
      split at hf
      · next e => exact .text (Or.inl ((isStdString_iff _).1 e))
      · cases hf
    case basicStringView =>
      simp only [pushStd] at hf
      split at hf
      · next e => exact .text (Or.inr (Or.inl ((isStdStringView_iff _).1 e)))
      · cases hf
    case pair =>
      simp only [pushStd, List.cons.injEq, and_true] at hf
      subst hf
      match as, hc with
      | [a, b], hc =>
        cases hc
        exact .pair (ih (.pushArray a) (by simp)) (ih (.pushArray b) (by simp))
    case tuple =>
      simp only [pushStd, List.cons.injEq, and_true] at hf
      subst hf
      match as, hc with
      | a :: as, hc =>
        cases hc
        exact .tuple (by simp) fun b hb => ih (.pushArray b) (List.mem_map.2 ⟨b, hb, rfl⟩)
    case variant =>
      simp only [pushStd, List.cons.injEq, and_true] at hf
      subst hf
      match as, hc with
      | a :: as, hc =>
        cases hc
        refine .variant (by simp) fun b hb hm => ih (.pushValue b) (List.mem_map.2 ⟨b, List.mem_filter.2 ⟨hb, ?_⟩, rfl⟩)
        simpa [← isMonostate_iff] using hm
    case weakPtr =>
      simp only [pushStd, List.cons.injEq, and_true] at hf
      subst hf
      exfalso
      match as, hc with
      | [a], hc => simp [calls] at hc
    all_goals first
      | exact list (by decide)
      | exact map (by decide)
      | exact null (by decide)


theorem pull_sound (h : Sane P) {t f cs} (hf : pullValueFns P t = [f]) (hc : calls P t f = some cs)
    (ih : ∀ c' ∈ cs, Meaning P c') : CanFromJson P t := by
  cases t with
  | arith a =>
    rw [pullValueFns_arith h] at hf
    cases a <;> simp [pullArith] at hf <;> subst hf <;> simp [calls, rapidJsonAccessor] at hc <;>
      first
      | exact .int8 (Or.inl rfl)
      | exact .int8 (Or.inr rfl)
      | exact .number (by decide)
  | enum u => exact .enum u
  | ptr b t =>
    rw [pullValueFns_ptr h] at hf
    split at hf
    · next e => exact .text (Or.inr (Or.inr ((isConstCharPtr_iff _).1 e)))
    · cases hf
  | monostate =>
    rw [pullValueFns_mono h] at hf
    cases hf
    simp only [calls, Option.some.injEq] at hc
    subst hc
    exact ih (.pullObject .monostate) (by simp)
  | cls c =>
    obtain ⟨k, hk⟩ := h.kind c
    rw [pullValueFns_cls hk] at hf
    cases k
    case plain =>
      cases hf
      simp only [calls] at hc
      split at hc
      · next e => exact .cls hk.1 (Or.inl e)
      · cases hc
        exact ih (.pullObject (.cls c)) (by simp)
    case map =>
      cases hf
      simp only [calls, mapTys] at hc
      split at hc
      · next e =>
        cases hc
        exact .clsMap (Or.inl hk.2.1) ((fromCString_iff _).1 e) (ih (.pullValue _) (by simp))
      · cases hc
    case multiMap =>
      cases hf
      simp only [calls, mapTys] at hc
      split at hc
      · next e =>
        cases hc
        exact .clsMap (Or.inr hk.2.2.1) ((fromCString_iff _).1 e) (ih (.pullValue _) (by simp))
      · cases hc
    all_goals
      have : .pullArray (.cls c) ∈ cs := by
        simp only [pullCls] at hf
        split at hf <;> cases hf <;> cases hc <;> simp
      exact ih _ this
  | std T as =>
    rw [pullValueFns_std h] at hf
    have map : T ∈ maps → CanFromJson P (.std T as) := by
      intro hT
      have : ∃ k v, as = [k, v] ∧ fromCString k = true ∧ .pullValue v ∈ cs := by
        simp only [maps, List.mem_cons, List.mem_nil_iff, or_false] at hT
        rcases hT with rfl | rfl | rfl | rfl <;>
          simp only [pullStd, List.cons.injEq, and_true] at hf <;> subst hf <;>
          match as, hc with
          | [k, v], hc =>
            simp only [calls, mapTys] at hc
            split at hc
            · next e => exact ⟨k, v, rfl, e, by
                have := Option.some.inj hc
                simp [← this]⟩
            · cases hc
      obtain ⟨k, v, rfl, hk, hm⟩ := this
      exact .map hT ((fromCString_iff _).1 hk) (ih _ hm)
    have null : T ∈ nullables → CanFromJson P (.std T as) := by
      intro hT
      have : ∃ a, as = [a] ∧ cs = [.pullValue a] := by
        simp only [nullables, List.mem_cons, List.mem_nil_iff, or_false] at hT
        rcases hT with rfl | rfl | rfl <;>
          simp only [pullStd, List.cons.injEq, and_true] at hf <;> subst hf <;>
          match as, hc with
          | [a], hc => exact ⟨a, rfl, by simpa [calls, eq_comm] using hc⟩
      obtain ⟨a, rfl, rfl⟩ := this
      exact .nullable hT (ih (.pullValue a) (by simp))
    cases T
    case basicString =>
      simp only [pullStd] at hf
      split at hf
      · next e => exact .text (Or.inl ((isStdString_iff _).1 e))
      · cases hf
    case basicStringView =>
      simp only [pullStd] at hf
      split at hf
      · next e => exact .text (Or.inr (Or.inl ((isStdStringView_iff _).1 e)))
      · cases hf
    case pair =>
      simp only [pullStd, List.cons.injEq, and_true] at hf
      subst hf
      match as, hc with
      | [a, b], hc =>
        cases hc
        exact .pair (ih (.pullValue a) (by simp)) (ih (.pullValue b) (by simp))
    case tuple =>
      simp only [pullStd, List.cons.injEq, and_true] at hf
      subst hf
      match as, hc with
      | a :: as, hc =>
        cases hc
        exact .tuple (by simp) fun b hb => ih (.pullValue b) (List.mem_cons_of_mem _ (List.mem_map.2 ⟨b, hb, rfl⟩))
    case variant =>
      simp only [pullStd, List.cons.injEq, and_true] at hf
      subst hf
      match as, hc with
      | a :: as, hc =>
        cases hc
        refine .variant (by simp) fun b hb hm =>
          ih (.pullValue b) (List.mem_cons_of_mem _ (List.mem_map.2 ⟨b, List.mem_filter.2 ⟨hb, ?_⟩, rfl⟩))
        simpa [← isMonostate_iff] using hm
    case weakPtr => simp [pullStd] at hf
    all_goals first
      | exact map (by decide)
      | exact null (by decide)
      | (simp only [pullStd, List.cons.injEq, and_true] at hf
         subst hf
         cases hc
         exact ih (.pullArray _) (by simp))

theorem pullArray_sound (h : Sane P) {t f cs} (hf : pullArrayFns P t = [f]) (hc : calls P t f = some cs)
    (ih : ∀ c' ∈ cs, Meaning P c') : CanFromJson P t := by
  cases t with
  | arith a => rw [pullArrayFns_other h (by simp) (by simp)] at hf; cases hf
  | enum a => rw [pullArrayFns_other h (by simp) (by simp)] at hf; cases hf
  | ptr b a => rw [pullArrayFns_other h (by simp) (by simp)] at hf; cases hf
  | monostate => rw [pullArrayFns_other h (by simp) (by simp)] at hf; cases hf
  | cls c =>
    obtain ⟨k, hk⟩ := h.kind c
    rw [pullArrayFns_cls hk] at hf
    cases k <;> simp only [pullArrCls, List.cons.injEq, and_true, reduceCtorEq] at hf <;> subst hf <;>
      simp only [calls, elemTy, backInsertable, insertable] at hc
    · cases e : P.backInsertable c <;> simp [e] at hc <;> subst hc
      exact .clsList hk.1 hk.2.1 hk.2.2.1 hk.2.2.2.1 hk.2.2.2.2 e (ih (.pullValue _) (by simp))
    · cases e : P.insertable c <;> simp [e] at hc <;> subst hc
      exact .clsSet (Or.inl hk.2.2.2.1) e (ih (.pullValue _) (by simp))
    · cases e : P.insertable c <;> simp [e] at hc <;> subst hc
      exact .clsSet (Or.inr hk.2.2.2.2) e (ih (.pullValue _) (by simp))
  | std T as =>
    rw [pullArrayFns_std h] at hf
    match as with
    | [] => cases T <;> simp [pullArrStd] at hf <;> subst hf <;> simp [calls, elemTy] at hc
    | a :: b :: as =>
      cases T <;> simp [pullArrStd] at hf <;> subst hf <;> simp [calls, elemTy] at hc
    | [a] =>
      cases T <;> simp only [pullArrStd, List.cons.injEq, and_true, reduceCtorEq] at hf <;> subst hf <;>
        simp only [calls, elemTy] at hc <;> split at hc <;> cases hc <;>
        first
        | exact .set (by decide) (ih (.pullValue _) (by simp))
        | (rename_i e
           refine .list (by decide) ?_ (ih (.pullValue _) (by simp))
           rintro ⟨h1, h2⟩
           first
           | (subst h2; simp [backInsertable] at e; done)
           | (cases h1; done))
        | (rename_i e; simp [backInsertable] at e)


theorem write_number {a : Arith} (h : binNative (.arith a) = true) : a ∈ binNumbers := by
  cases a <;> first | (simp [binNative, isArith, isStdString] at h; done) | decide

theorem not_arith_cls {t : CppTy} (h : ∀ c, t ≠ .cls c) (cs) : calls P t .writeCustom ≠ some cs ∧ calls P t .readCustom ≠ some cs := by
  cases t <;> first | exact absurd rfl (h _) | simp [calls]

theorem write_sound {t f cs} (hf : candidates P (.write t) = [f]) (hc : calls P t f = some cs)
    (ih : ∀ c' ∈ cs, Meaning P c') : CanToBinary P t := by
  simp only [candidates] at hf
  split at hf
  · next hn =>
    cases t with
    | arith a => exact .number (write_number hn)
    | std T as =>
      have : isStdString (.std T as) = true := by simpa [binNative, isArith] using hn
      rw [(isStdString_iff _).1 this]
      exact .string
    | _ => simp [binNative, isArith, isStdString] at hn
  · next hn =>
    have custom : f = .writeClass → CanToBinary P t := by
      rintro rfl
      cases hc
      exact ih (.writeCustom t) (by simp)
    cases t with
    | arith a =>
      have : writeFns P (.arith a) = [.writeClass] := by
        have hb : binNative (.arith a) = false := by simpa using hn
        simp [writeFns, enabled, binBuiltIn, hb, spec, isIteratableExceptString, isIteratable, isEnum, isVariant]
      rw [this] at hf
      exact custom (by simpa [eq_comm] using hf)
    | ptr b a =>
      have : writeFns P (.ptr b a) = [.writeClass] := by disp []
      rw [this] at hf
      exact custom (by simpa [eq_comm] using hf)
    | monostate =>
      have : writeFns P .monostate = [.writeClass] := by disp []
      rw [this] at hf
      exact custom (by simpa [eq_comm] using hf)
    | enum u =>
      have : writeFns P (.enum u) = [.writeEnum] := by disp []
      rw [this] at hf
      cases hf
      cases hc
      have := ih (.write (.arith u)) (by simp)
      cases this with
      | number h => exact .enum h
    | cls c =>
      rw [writeFns_cls] at hf
      cases hi : P.iteratable c
      · simp only [hi] at hf
        exact custom (by simpa [eq_comm] using hf)
      · cases hs : P.hasSize c <;> simp [hi, hs] at hf
        subst hf
        cases hc
        exact .clsList hi hs (ih (.write _) (by simp))
    | std T as =>
      rw [writeFns_std] at hf
      have null : T ∈ nullables → CanToBinary P (.std T as) := by
        intro hT
        have : ∃ a, as = [a] ∧ cs = [.write a] := by
          simp only [nullables, List.mem_cons, List.mem_nil_iff, or_false] at hT
          rcases hT with rfl | rfl | rfl <;>
            simp only [writeStd, List.cons.injEq, and_true] at hf <;> subst hf <;>
            match as, hc with
            | [a], hc => exact ⟨a, rfl, by simpa [calls, eq_comm] using hc⟩
        obtain ⟨a, rfl, rfl⟩ := this
        exact .nullable hT (ih (.write a) (by simp))
      have list : T ∈ lists ++ sets ++ [.array, .basicStringView] → CanToBinary P (.std T as) := by
        intro hT
        have : ∃ e, cs = [.write e] ∧ as = [e] := by
          simp only [lists, sets, List.cons_append, List.nil_append, List.mem_cons, List.mem_nil_iff, or_false] at hT
          rcases hT with rfl | rfl | rfl | rfl | rfl | rfl | rfl | rfl | rfl <;>
            simp only [writeStd, List.cons.injEq, and_true] at hf <;> subst hf <;>
            match as, hc with
            | [e], hc => exact ⟨e, (Option.some.inj hc).symm, rfl⟩
        obtain ⟨e, rfl, rfl⟩ := this
        exact .list hT (ih (.write e) (by simp))
      have map : T ∈ maps → CanToBinary P (.std T as) := by
        intro hT
        have key : ∀ k v, as = [k, v] → CanToBinary P (.std T as) := by
          rintro k v rfl
          have : cs = [.write (.std .pair [k, v])] := by
            simp only [maps, List.mem_cons, List.mem_nil_iff, or_false] at hT
            rcases hT with rfl | rfl | rfl | rfl <;>
              simp only [writeStd, List.cons.injEq, and_true] at hf <;> subst hf <;>
              exact (Option.some.inj hc).symm
          subst this
          have := ih (.write (.std .pair [k, v])) (by simp)
          cases this with
          | pair h1 h2 => exact .map hT h1 h2
          | map h _ _ => exact absurd h (by decide)
        match as with
        | [k, v] => exact key k v rfl
        | [] =>
          simp only [maps, List.mem_cons, List.mem_nil_iff, or_false] at hT
          rcases hT with rfl | rfl | rfl | rfl <;> simp [writeStd] at hf <;> subst hf <;> cases hc
        | [a] =>
          simp only [maps, List.mem_cons, List.mem_nil_iff, or_false] at hT
          rcases hT with rfl | rfl | rfl | rfl <;> simp [writeStd] at hf <;> subst hf <;> cases hc
        | a :: b :: d :: as =>
          simp only [maps, List.mem_cons, List.mem_nil_iff, or_false] at hT
          rcases hT with rfl | rfl | rfl | rfl <;> simp [writeStd] at hf <;> subst hf <;> cases hc
      cases T
      case basicString => simp [writeStd] at hf
      case forwardList => simp [writeStd] at hf
      case tuple => exact custom (by simpa [writeStd, eq_comm] using hf)
      case weakPtr => exact custom (by simpa [writeStd, eq_comm] using hf)
      case pair =>
        simp only [writeStd, List.cons.injEq, and_true] at hf
        subst hf
        match as, hc with
        | [a, b], hc =>
          cases hc
          exact .pair (ih (.write a) (by simp)) (ih (.write b) (by simp))
      case variant =>
        simp only [writeStd, List.cons.injEq, and_true] at hf
        subst hf
        match as, hc with
        | a :: as, hc =>
          simp only [calls] at hc
          split at hc
          · next hl =>
            cases hc
            refine .variant (by simp) hl fun b hb hm => ih (.write b) (List.mem_map.2 ⟨b, List.mem_filter.2 ⟨hb, ?_⟩, rfl⟩)
            simpa [← isMonostate_iff] using hm
          · cases hc
      all_goals first
        | exact list (by decide)
        | exact map (by decide)
        | exact null (by decide)


theorem read_sound (h : Sane P) {t f cs} (hf : candidates P (.read t) = [f]) (hc : calls P t f = some cs)
    (ih : ∀ c' ∈ cs, Meaning P c') : CanFromBinary P t := by
  simp only [candidates] at hf
  split at hf
  · next hn =>
    cases t with
    | arith a => exact .number (write_number hn)
    | std T as =>
      have : isStdString (.std T as) = true := by simpa [binNative, isArith] using hn
      rw [(isStdString_iff _).1 this]
      exact .string
    | _ => simp [binNative, isArith, isStdString] at hn
  · next hn =>
    have custom : f = .readClass → CanFromBinary P t := by
      rintro rfl
      cases hc
      exact ih (.readCustom t) (by simp)
    cases t with
    | arith a =>
      obtain ⟨h1, h2, h3, h4, h5⟩ := h.other (t := .arith a) (by simp)
      have : readFns P (.arith a) = [.readClass] := by
        have hb : binNative (.arith a) = false := by simpa using hn
        simp [readFns, enabled, binBuiltIn, hb, spec, isIteratableExceptString, isIteratable, isEnum, isVariant, isArray, isMapOrHash,
          isMultiMapOrHash, h1, h2]
      rw [this] at hf
      exact custom (by simpa [eq_comm] using hf)
    | ptr b a =>
      obtain ⟨h1, h2, h3, h4, h5⟩ := h.other (t := .ptr b a) (by simp)
      have : readFns P (.ptr b a) = [.readClass] := by disp [h1, h2]
      rw [this] at hf
      exact custom (by simpa [eq_comm] using hf)
    | monostate =>
      obtain ⟨h1, h2, h3, h4, h5⟩ := h.other (t := .monostate) (by simp)
      have : readFns P .monostate = [.readClass] := by disp [h1, h2]
      rw [this] at hf
      exact custom (by simpa [eq_comm] using hf)
    | enum u =>
      obtain ⟨h1, h2, h3, h4, h5⟩ := h.other (t := .enum u) (by simp)
      have : readFns P (.enum u) = [.readEnum] := by disp [h1, h2]
      rw [this] at hf
      cases hf
      cases hc
      have := ih (.read (.arith u)) (by simp)
      cases this with
      | number h => exact .enum h
    | cls c =>
      obtain ⟨k, hk⟩ := h.kind c
      rw [readFns_cls hk] at hf
      have pr : ∀ k v, CanFromBinary P (.std .pair [k, v]) → CanFromBinary P k ∧ CanFromBinary P v := by
        intro k v h
        cases h with
        | pair h1 h2 => exact ⟨h1, h2⟩
        | map h _ _ => exact absurd h (by decide)
      cases k
      case plain => exact custom (by simpa [readCls, eq_comm] using hf)
      case map =>
        cases hf
        cases hc
        obtain ⟨a, b⟩ := pr _ _ (ih (.read (.std .pair [P.key c, P.mapped c])) (by simp))
        exact .clsMap (Or.inl hk.2.1) a b
      case multiMap =>
        cases hf
        cases hc
        obtain ⟨a, b⟩ := pr _ _ (ih (.read (.std .pair [P.key c, P.mapped c])) (by simp))
        exact .clsMap (Or.inr hk.2.2.1) a b
      case list =>
        cases hr : P.resizable c <;> simp [readCls, hr] at hf <;> subst hf
        · simp only [calls, elemTy, insertable] at hc
          cases e : P.insertable c <;> simp [e] at hc
          subst hc
          exact .clsSet hk.1 hk.2.1 hk.2.2.1 (Or.inr (Or.inr hr)) e (ih (.read _) (by simp))
        · cases hc
          exact .clsList hk.1 hk.2.1 hk.2.2.1 hk.2.2.2.1 hk.2.2.2.2 hr (ih (.read _) (by simp))
      case set =>
        cases hf
        simp only [calls, elemTy, insertable] at hc
        cases e : P.insertable c <;> simp [e] at hc
        subst hc
        exact .clsSet hk.1 hk.2.1 hk.2.2.1 (Or.inl hk.2.2.2.1) e (ih (.read _) (by simp))
      case multiSet =>
        cases hf
        simp only [calls, elemTy, insertable] at hc
        cases e : P.insertable c <;> simp [e] at hc
        subst hc
        exact .clsSet hk.1 hk.2.1 hk.2.2.1 (Or.inr (Or.inl hk.2.2.2.2)) e (ih (.read _) (by simp))
    | std T as =>
      rw [readFns_std h] at hf
      have null : T ∈ nullables → CanFromBinary P (.std T as) := by
        intro hT
        have : ∃ a, as = [a] ∧ cs = [.read a] := by
          simp only [nullables, List.mem_cons, List.mem_nil_iff, or_false] at hT
          rcases hT with rfl | rfl | rfl <;>
            simp only [readStd, List.cons.injEq, and_true] at hf <;> subst hf <;>
            match as, hc with
            | [a], hc => exact ⟨a, rfl, by simpa [calls, eq_comm] using hc⟩
        obtain ⟨a, rfl, rfl⟩ := this
        exact .nullable hT (ih (.read a) (by simp))
      have map : T ∈ maps → CanFromBinary P (.std T as) := by
        intro hT
        have : ∃ k v, as = [k, v] ∧ cs = [.read (.std .pair [k, v])] := by
          simp only [maps, List.mem_cons, List.mem_nil_iff, or_false] at hT
          rcases hT with rfl | rfl | rfl | rfl <;>
            simp only [readStd, List.cons.injEq, and_true] at hf <;> subst hf <;>
            match as, hc with
            | [k, v], hc => exact ⟨k, v, rfl, (Option.some.inj hc).symm⟩
        obtain ⟨k, v, rfl, rfl⟩ := this
        have := ih (.read (.std .pair [k, v])) (by simp)
        cases this with
        | pair h1 h2 => exact .map hT h1 h2
        | map h _ _ => exact absurd h (by decide)
      cases T
      case basicString => simp [readStd] at hf
      case tuple => exact custom (by simpa [readStd, eq_comm] using hf)
      case weakPtr => exact custom (by simpa [readStd, eq_comm] using hf)
      case pair =>
        simp only [readStd, List.cons.injEq, and_true] at hf
        subst hf
        match as, hc with
        | [a, b], hc =>
          cases hc
          exact .pair (ih (.read a) (by simp)) (ih (.read b) (by simp))
      case variant =>
        simp only [readStd, List.cons.injEq, and_true] at hf
        subst hf
        match as, hc with
        | a :: as, hc =>
          cases hc
          refine .variant (by simp) fun b hb hm => ih (.read b) (List.mem_map.2 ⟨b, List.mem_filter.2 ⟨hb, ?_⟩, rfl⟩)
          simpa [← isMonostate_iff] using hm
      all_goals first
        | exact map (by decide)
        | exact null (by decide)
        | (match as with
           | [] => simp [readStd] at hf; subst hf; simp [calls, elemTy] at hc
           | a :: b :: as => simp [readStd] at hf; subst hf; simp [calls, elemTy] at hc
           | [a] =>
             simp only [readStd, List.cons.injEq, and_true] at hf
             subst hf
             simp only [calls, elemTy] at hc
             split at hc
             · next e =>
               cases hc
               first
               | exact .set (by decide) (ih (.read _) (by simp))
               | (refine .list (by decide) ?_ (ih (.read _) (by simp))
                  rintro ⟨h1, h2⟩
                  first
                  | (subst h2; simp [elemRefs] at e; done)
                  | (cases h1; done))
               | (simp [insertable] at e)
             · cases hc)

/-- A call which compiles is one for a supported type. -/
theorem pushValueFns_le_one (h : Sane P) (t) : (pushValueFns P t).length ≤ 1 := by
  cases t with
  | arith a => rw [pushValueFns_arith h]; cases a <;> simp [pushArith]
  | enum u => rw [pushValueFns_enum h]; simp
  | ptr b t => rw [pushValueFns_ptr h]; split <;> simp
  | std T as => rw [pushValueFns_std h]; cases T <;> simp [pushStd] <;> split <;> simp
  | monostate => rw [pushValueFns_mono h]; simp
  | cls c =>
    obtain ⟨k, hk⟩ := h.kind c
    rw [pushValueFns_cls hk]
    cases k <;> simp [pushCls] <;> split <;> simp

theorem sound (h : Sane P) {c : Call} (hc : Compiles P c) : Meaning P c := by
  induction hc with
  | @mk c f cs hf hb _ ih =>
    cases c with
    | pushValue t => exact push_sound h hf hb ih
    | pushPointee t =>
      have := pushValueFns_le_one h t
      simp only [candidates] at hf
      obtain ⟨f', hf'⟩ : ∃ f', pushValueFns P t = [f'] := by
        match hl : pushValueFns P t with
        | [] => simp [hl] at hf
        | [f'] => exact ⟨f', rfl⟩
        | _ :: _ :: _ => simp [hl] at this
      rw [hf'] at hf
      have : f' = f := by
        cases hv : (f' != .pushVariant) <;> simp [hv] at hf
        exact hf
      subst this
      refine ⟨push_sound h hf' hb ih, ?_⟩
      rintro as rfl
      rw [pushValueFns_std h] at hf'
      cases hf'
      cases hf
    | pushArray t =>
      simp only [candidates, pushArrayFns, enabled] at hf
      cases hj : isJsonSerializable P t <;> simp [hj] at hf <;> subst hf <;> cases hb
      · exact ih (.pushValue t) (by simp [Call.ty])
      · exact ih (.pushObject t) (by simp [Call.ty])
    | pushMember t =>
      simp only [candidates, pushMemberFns, enabled] at hf
      cases hj : isJsonSerializable P t <;> simp [hj] at hf <;> subst hf <;> cases hb
      · exact ih (.pushValue t) (by simp [Call.ty])
      · exact ih (.pushObject t) (by simp [Call.ty])
    | pushObject t =>
      simp only [candidates] at hf
      split at hf
      · next hn =>
        cases hf
        cases t with
        | cls c =>
          simp only [calls, Call.ty] at hb
          split at hb
          · next e =>
            refine .cls ?_ (Or.inr e)
            have : jsonBuiltIn P (.cls c) = false := by simpa using hn
            simpa [jsonBuiltIn, isIntegral, isFloatingPoint, isPointer, isEnum, spec, isIteratable, isVariant] using this
          · cases hb
        | _ => simp [calls, Call.ty] at hb
      · split at hf
        · exact push_sound h hf hb ih
        · cases hf
    | pullValue t => exact pull_sound h hf hb ih
    | pullArray t =>
      simp only [candidates] at hf
      split at hf
      · split at hf
        · exact pull_sound h hf hb ih
        · cases hf
      · exact pullArray_sound h hf hb ih
    | pullObject t =>
      simp only [candidates] at hf
      split at hf
      · next hn =>
        cases hf
        cases t with
        | cls c =>
          simp only [calls, Call.ty] at hb
          split at hb
          · next e =>
            refine .cls ?_ (Or.inr e)
            have : jsonBuiltIn P (.cls c) = false := by simpa using hn
            simpa [jsonBuiltIn, isIntegral, isFloatingPoint, isPointer, isEnum, spec, isIteratable, isVariant] using this
          · cases hb
        | _ => simp [calls, Call.ty] at hb
      · split at hf
        · exact pull_sound h hf hb ih
        · cases hf
    | write t => exact write_sound hf hb ih
    | writeVersion t =>
      simp only [candidates, writeVersionFns, enabled] at hf
      cases hj : binBuiltIn P t <;> simp [hj] at hf <;> subst hf <;> cases hb
      · exact ih (.writeCustom t) (by simp [Call.ty])
      · exact ih (.write t) (by simp [Call.ty])
    | writeCustom t =>
      simp only [candidates] at hf
      split at hf
      · next hn =>
        cases hf
        cases t with
        | cls c =>
          simp only [calls, Call.ty] at hb
          split at hb
          · next e =>
            refine .cls ?_ e
            have : binBuiltIn P (.cls c) = false := by simpa using hn
            simpa [binBuiltIn, binNative, isArith, isStdString, isEnum, spec, isIteratable, isVariant] using this
          · cases hb
        | _ => simp [calls, Call.ty] at hb
      · cases hf
    | read t => exact read_sound h hf hb ih
    | readVersion t =>
      simp only [candidates, readVersionFns, enabled] at hf
      cases hj : binBuiltIn P t <;> simp [hj] at hf <;> subst hf <;> cases hb
      · exact ih (.readCustom t) (by simp [Call.ty])
      · exact ih (.read t) (by simp [Call.ty])
    | readCustom t =>
      simp only [candidates] at hf
      split at hf
      · next hn =>
        cases hf
        cases t with
        | cls c =>
          simp only [calls, Call.ty] at hb
          split at hb
          · next e =>
            refine .cls ?_ e
            have : binBuiltIn P (.cls c) = false := by simpa using hn
            simpa [binBuiltIn, binNative, isArith, isStdString, isEnum, spec, isIteratable, isVariant] using this
          · cases hb
        | _ => simp [calls, Call.ty] at hb
      · cases hf
    | jsonType t => trivial
    | toDocument e t => trivial
    | toJson t => trivial
    | fromJson t => trivial


/-! ## Supported types compile -/

theorem isJsonSerializable_cls (h : Sane P) {t} (hj : isJsonSerializable P t = true) :
    ∃ c, t = .cls c ∧ P.iteratable c = false ∧ P.jsonSpecial c = false := by
  cases t with
  | cls c =>
    refine ⟨c, rfl, h.json c ?_⟩
    simp only [isJsonSerializable, Bool.or_eq_true, Bool.not_eq_true'] at hj
    rcases hj with (e | e) | e
    · exact Or.inr (Or.inr e)
    · exact Or.inl e
    · exact Or.inr (Or.inl e)
  | _ =>
    simp only [isJsonSerializable, Bool.or_eq_true, Bool.false_eq_true, false_or] at hj
    obtain ⟨c, hc⟩ := h.adapted _ hj
    cases hc

theorem Sane.plain (h : Sane P) {c} (hi : P.iteratable c = false) : HasKind P c .plain := ⟨hi, h.cls c hi⟩

/-- array elements and members -/
theorem push_elem (h : Sane P) {t} (ht : Compiles P (.pushValue t)) :
    Compiles P (.pushArray t) ∧ Compiles P (.pushMember t) := by
  cases hj : isJsonSerializable P t
  · refine ⟨.mk (f := .pushArrayOther) (cs := [.pushValue t]) ?_ rfl ?_,
      .mk (f := .pushMemberOther) (cs := [.pushValue t]) ?_ rfl ?_⟩
    · simp [candidates, pushArrayFns, enabled, hj]
    · simpa using ht
    · simp [candidates, pushMemberFns, enabled, hj]
    · simpa using ht
  · obtain ⟨c, rfl, hi, hs⟩ := isJsonSerializable_cls h hj
    have ho : Compiles P (.pushObject (.cls c)) := by
      cases ht with
      | mk hf hb ih =>
        simp only [candidates, pushValueFns_cls (h.plain hi), pushCls] at hf
        cases hf
        simp only [calls, Call.ty, hs] at hb
        cases hb
        exact ih _ (by simp)
    refine ⟨.mk (f := .pushArrayCustom) (cs := [.pushObject (.cls c)]) ?_ rfl ?_,
      .mk (f := .pushMemberCustom) (cs := [.pushObject (.cls c)]) ?_ rfl ?_⟩
    · simp [candidates, pushArrayFns, enabled, hj]
    · simpa using ho
    · simp [candidates, pushMemberFns, enabled, hj]
    · simpa using ho

theorem pushVariant_mem {t} (h : .pushVariant ∈ pushValueFns P t) : ∃ as, t = .std .variant as := by
  have : isVariant t = true := by
    simpa [pushValueFns, enabled] using h
  cases t with
  | std T as =>
    simp only [isVariant, spec, beq_iff_eq] at this
    exact ⟨as, by rw [← this]⟩
  | _ => cases this

theorem push_pointee (h : Sane P) {t} (hv : ∀ as, t ≠ .std .variant as) (ht : Compiles P (.pushValue t)) :
    Compiles P (.pushPointee t) := by
  cases ht with
  | @mk _ f cs hf hb ih =>
    refine .mk (f := f) (cs := cs) ?_ hb ih
    have hf : pushValueFns P t = [f] := hf
    have : f ≠ .pushVariant := by
      rintro rfl
      obtain ⟨as, rfl⟩ := pushVariant_mem (P := P) (t := t) (by simp [hf])
      exact hv as rfl
    simp [candidates, hf, this]

theorem jsonBuiltIn_cls (c) : jsonBuiltIn P (.cls c) = P.iteratable c := by
  simp [jsonBuiltIn, isIntegral, isFloatingPoint, isPointer, isEnum, spec, isIteratable, isVariant]

theorem binBuiltIn_cls (c) : binBuiltIn P (.cls c) = P.iteratable c := by
  simp [binBuiltIn, binNative, isArith, isStdString, isEnum, spec, isIteratable, isVariant]

theorem isMonostate_ne {t : CppTy} (h : (!t.isMonostate) = true) : t ≠ .monostate := by
  rintro rfl; simp [CppTy.isMonostate] at h

theorem push_complete (h : Sane P) {t} (ht : CanToJson P t) : Compiles P (.pushValue t) := by
  induction ht with
  | @number a ha =>
    refine .mk (f := .pushNumber) (cs := []) ?_ ?_ (by simp)
    · simp only [candidates, pushValueFns_arith h]
      cases a <;> first | rfl | exact absurd ha (by decide)
    · cases a <;> first | rfl | exact absurd ha (by decide)
  | @int8 a ha =>
    refine .mk (f := .pushInt8) (cs := []) ?_ rfl (by simp)
    simp only [candidates, pushValueFns_arith h]
    rcases ha with rfl | rfl <;> rfl
  | enum u => exact .mk (f := .pushEnum) (cs := []) (pushValueFns_enum h u) rfl (by simp)
  | text ht =>
    rcases ht with rfl | rfl | rfl
    · exact .mk (f := .pushStr) (cs := []) (pushValueFns_std h _ _) rfl (by simp)
    · exact .mk (f := .pushSView) (cs := []) (pushValueFns_std h _ _) rfl (by simp)
    · exact .mk (f := .pushCStr) (cs := []) (pushValueFns_ptr h _ _) rfl (by simp)
  | @list T t hT _ ih =>
    have ih := (push_elem h ih).1
    simp only [lists, sets, List.cons_append, List.nil_append, List.mem_cons, List.mem_nil_iff, or_false] at hT
    rcases hT with rfl | rfl | rfl | rfl | rfl | rfl | rfl | rfl | rfl <;>
      exact .mk (cs := [.pushArray t]) (pushValueFns_std h _ _) rfl (by simpa using ih)
  | @map T k v hT hk _ ih =>
    have ih := push_elem h ih
    have hk := (hasCharData_iff k).2 hk
    simp only [maps, List.mem_cons, List.mem_nil_iff, or_false] at hT
    rcases hT with rfl | rfl | rfl | rfl
    · exact .mk (cs := [.pushMember v]) (pushValueFns_std h _ _) (by simp [calls, Call.ty, mapTys, hk]) (by simpa using ih.2)
    · exact .mk (cs := [.pushMember v]) (pushValueFns_std h _ _) (by simp [calls, Call.ty, mapTys, hk]) (by simpa using ih.2)
    · exact .mk (cs := [.pushArray v]) (pushValueFns_std h _ _) (by simp [calls, Call.ty, mapTys, hk]) (by simpa using ih.1)
    · exact .mk (cs := [.pushArray v]) (pushValueFns_std h _ _) (by simp [calls, Call.ty, mapTys, hk]) (by simpa using ih.1)
  | @pair a b _ _ iha ihb =>
    exact .mk (cs := [.pushArray a, .pushArray b]) (pushValueFns_std h _ _) rfl
      (by simpa using ⟨(push_elem h iha).1, (push_elem h ihb).1⟩)
  | @tuple as hne _ ih =>
    cases as with
    | nil => exact absurd rfl hne
    | cons a as =>
      refine .mk (cs := (a :: as).map .pushArray) (pushValueFns_std h _ _) rfl fun c' hc' => ?_
      obtain ⟨b, hb, rfl⟩ := List.mem_map.1 hc'
      exact (push_elem h (ih b hb)).1
  | @nullable T t hT hv _ ih =>
    have ih := push_pointee h hv ih
    simp only [nullables, List.mem_cons, List.mem_nil_iff, or_false] at hT
    rcases hT with rfl | rfl | rfl <;>
      exact .mk (cs := [.pushPointee t]) (pushValueFns_std h _ _) rfl (by simpa using ih)
  | @variant as hne _ ih =>
    cases as with
    | nil => exact absurd rfl hne
    | cons a as =>
      refine .mk (cs := ((a :: as).filter (!·.isMonostate)).map .pushValue) (pushValueFns_std h _ _) rfl fun c' hc' => ?_
      obtain ⟨b, hb, rfl⟩ := List.mem_map.1 hc'
      obtain ⟨h1, h2⟩ := List.mem_filter.1 hb
      exact ih b h1 (isMonostate_ne h2)
  | @cls c hi hcode =>
    cases hs : P.jsonSpecial c
    · refine .mk (f := .pushCustom) (cs := [.pushObject (.cls c)]) (pushValueFns_cls (h.plain hi))
        (by simp [calls, Call.ty, hs]) ?_
      have : P.jsonPush c = true := by simpa [hs] using hcode
      intro c' hc'
      rw [List.mem_singleton.1 hc']
      exact .mk (f := .pushObject) (cs := []) (by simp [candidates, jsonBuiltIn_cls, hi]) (by simp [calls, Call.ty, this])
        (by simp)
    · exact .mk (f := .pushCustom) (cs := []) (pushValueFns_cls (h.plain hi)) (by simp [calls, Call.ty, hs]) (by simp)
  | @clsList c hi hm hmm _ ih =>
    obtain ⟨k, hk⟩ := h.kind c
    have ih := (push_elem h ih).1
    have : pushValueFns P (.cls c) = if P.hasSize c then [.pushSized] else [.pushUnsized] := by
      rw [pushValueFns_cls hk]
      cases k <;> simp [HasKind, hi, hm, hmm] at hk <;> rfl
    cases hs : P.hasSize c
    · exact .mk (f := .pushUnsized) (cs := [.pushArray (P.elem c)]) (by simp [candidates, this, hs]) rfl (by simpa using ih)
    · exact .mk (f := .pushSized) (cs := [.pushArray (P.elem c)]) (by simp [candidates, this, hs]) rfl (by simpa using ih)
  | @clsMap c hm hkey _ ih =>
    obtain ⟨k, hk⟩ := h.kind c
    have ih := push_elem h ih
    have hkey := (hasCharData_iff _).2 hkey
    cases k
    case map =>
      exact .mk (f := .pushMap) (cs := [.pushMember (P.mapped c)]) (pushValueFns_cls hk)
        (by simp [calls, Call.ty, mapTys, hkey]) (by simpa using ih.2)
    case multiMap =>
      exact .mk (f := .pushMultiMap) (cs := [.pushArray (P.mapped c)]) (pushValueFns_cls hk)
        (by simp [calls, Call.ty, mapTys, hkey]) (by simpa using ih.1)
    all_goals simp [hk.2.1, hk.2.2.1] at hm

/-- `jsonType<T>()` refers to exactly one overload, for every type. -/
theorem jsonType_compiles (t) : Compiles P (.jsonType t) := by
  have : ∃ f, jsonTypeFns P t = [f] ∧ calls P t f = some [] := by
    have hcs : isCString t = true → isString t = true := by intro e; simp [isString, e]
    cases hb : isArith .bool t
    · cases hn : (isIntegral t || isFloatingPoint t)
      · have hi : isIntegral t = false ∧ isFloatingPoint t = false := by simpa using hn
        cases hs : (isString t || isCString t)
        · cases ha : (isIteratable P t && !(isString t || spec .map t || spec .unorderedMap t))
          · exact ⟨.typeObject, by simp only [jsonTypeFns, hb, hi.1, hi.2, hs, ha]; simp [enabled, hs], rfl⟩
          · exact ⟨.typeArray, by simp only [jsonTypeFns, hb, hi.1, hi.2, hs, ha]; simp [enabled], rfl⟩
        · have hs' : isString t = true := by
            rcases Bool.or_eq_true_iff.1 hs with e | e
            · exact e
            · exact hcs e
          exact ⟨.typeString, by simp [jsonTypeFns, enabled, hb, hi.1, hi.2, hs'], rfl⟩
      · refine ⟨.typeNumber, ?_, rfl⟩
        cases t with
        | arith a => cases a <;> simp [isArith] at hb <;> disp []
        | _ => simp [isIntegral, isFloatingPoint] at hn
    · refine ⟨.typeBool, ?_, rfl⟩
      cases t with
      | arith a => cases a <;> simp [isArith] at hb; disp []
      | _ => simp [isArith] at hb
  obtain ⟨f, h1, h2⟩ := this
  exact .mk h1 h2 (by simp)

theorem pull_complete (h : Sane P) {t} (ht : CanFromJson P t) : Compiles P (.pullValue t) := by
  have str : Compiles P (.pullValue .string) :=
    .mk (f := .pullStr) (cs := [.jsonType .string]) (pullValueFns_std h _ _) rfl (by simpa using jsonType_compiles _)
  -- containers: the type of the value, then the overload for arrays
  have viaArray : ∀ {t f g e}, pullValueFns P t = [f] → f = .pullReservable ∨ f = .pullUnreservable → pullArrayFns P t = [g] →
      calls P t g = some [.pullValue e] → Compiles P (.pullValue e) → Compiles P (.pullValue t) := by
    intro t f g e h1 h2 h3 h4 h5
    refine .mk (cs := [.jsonType t, .pullArray t]) h1 (by rcases h2 with rfl | rfl <;> rfl) ?_
    simp only [List.mem_cons, List.mem_nil_iff, or_false, forall_eq_or_imp, forall_eq]
    exact ⟨jsonType_compiles _, .mk (f := g) (by simp only [candidates, h3]) h4 (by simpa using h5)⟩
  induction ht with
  | @number a ha =>
    cases a <;> first
      | exact absurd ha (by decide)
      | exact .mk (cs := [.jsonType (.arith _)]) (pullValueFns_arith h _) rfl (by simpa using jsonType_compiles _)
  | @int8 a ha =>
    have : Compiles P (.pullValue (.arith .int)) :=
      .mk (cs := [.jsonType (.arith _)]) (pullValueFns_arith h _) rfl (by simpa using jsonType_compiles _)
    rcases ha with rfl | rfl <;>
      exact .mk (f := .pullInt8) (cs := [.pullValue (.arith .int)]) (pullValueFns_arith h _) rfl (by simpa using this)
  | enum u =>
    exact .mk (f := .pullEnum) (cs := [.jsonType (.arith .long), .jsonType (.arith .ulong)]) (pullValueFns_enum h u) rfl
      (by simpa using ⟨jsonType_compiles _, jsonType_compiles _⟩)
  | text ht =>
    rcases ht with rfl | rfl | rfl
    · exact str
    · exact .mk (f := .pullStrCheck) (cs := [.jsonType .string]) (pullValueFns_std h _ _) rfl
        (by simpa using jsonType_compiles _)
    · exact .mk (f := .pullStrCheck) (cs := [.jsonType .string]) (pullValueFns_ptr h _ _) rfl
        (by simpa using jsonType_compiles _)
  | @list T t hT hb _ ih =>
    have hbi : backInsertable P (.std T [t]) = true := by
      simp only [lists, List.mem_cons, List.mem_nil_iff, or_false] at hT
      unfold backInsertable
      split
      · next e => cases e; exact absurd ⟨rfl, rfl⟩ hb
      · rfl
      · rfl
      · rfl
      · next e => cases e
      · next h1 h2 h3 h4 h5 =>
        rcases hT with rfl | rfl | rfl
        · exact absurd rfl (h2 t)
        · exact absurd rfl (h3 t)
        · exact absurd rfl (h4 t)
    simp only [lists, List.mem_cons, List.mem_nil_iff, or_false] at hT
    rcases hT with rfl | rfl | rfl
    · exact viaArray (pullValueFns_std h _ _) (Or.inl rfl) (pullArrayFns_std h _ _) (by simp [calls, elemTy, hbi]) ih
    · exact viaArray (pullValueFns_std h _ _) (Or.inr rfl) (pullArrayFns_std h _ _) (by simp [calls, elemTy, hbi]) ih
    · exact viaArray (pullValueFns_std h _ _) (Or.inr rfl) (pullArrayFns_std h _ _) (by simp [calls, elemTy, hbi]) ih
  | @set T t hT _ ih =>
    simp only [sets, List.mem_cons, List.mem_nil_iff, or_false] at hT
    rcases hT with rfl | rfl | rfl | rfl <;>
      exact viaArray (pullValueFns_std h _ _) (by first | exact Or.inl rfl | exact Or.inr rfl) (pullArrayFns_std h _ _)
        (by simp [calls, elemTy, insertable]) ih
  | @map T k v hT hk _ ih =>
    have hk := (fromCString_iff k).2 hk
    simp only [maps, List.mem_cons, List.mem_nil_iff, or_false] at hT
    rcases hT with rfl | rfl | rfl | rfl
    · exact .mk (f := .pullMap) (cs := [.jsonType (.std .map [k, v]), .pullValue v]) (pullValueFns_std h _ _)
        (by simp only [calls, Call.ty, mapTys, hk, if_true]) (by simpa using ⟨jsonType_compiles _, ih⟩)
    · exact .mk (f := .pullMap) (cs := [.jsonType (.std .unorderedMap [k, v]), .pullValue v]) (pullValueFns_std h _ _)
        (by simp only [calls, Call.ty, mapTys, hk, if_true]) (by simpa using ⟨jsonType_compiles _, ih⟩)
    · exact .mk (f := .pullMultiMap) (cs := [.jsonType (.std .multimap [k, v]), .pullValue v]) (pullValueFns_std h _ _)
        (by simp only [calls, Call.ty, mapTys, hk, if_true]) (by simpa using ⟨jsonType_compiles _, ih⟩)
    · exact .mk (f := .pullMultiMap) (cs := [.jsonType (.std .unorderedMultimap [k, v]), .pullValue v]) (pullValueFns_std h _ _)
        (by simp only [calls, Call.ty, mapTys, hk, if_true]) (by simpa using ⟨jsonType_compiles _, ih⟩)
  | @pair a b _ _ iha ihb =>
    exact .mk (cs := [.jsonType (.std .pair [a, b]), .pullValue a, .pullValue b]) (pullValueFns_std h _ _) rfl
      (by simpa using ⟨jsonType_compiles _, iha, ihb⟩)
  | @tuple as hne _ ih =>
    cases as with
    | nil => exact absurd rfl hne
    | cons a as =>
      refine .mk (cs := .jsonType _ :: (a :: as).map .pullValue) (pullValueFns_std h _ _) rfl fun c' hc' => ?_
      rcases List.mem_cons.1 hc' with rfl | hc'
      · exact jsonType_compiles _
      · obtain ⟨b, hb, rfl⟩ := List.mem_map.1 hc'
        exact ih b hb
  | @nullable T t hT _ ih =>
    simp only [nullables, List.mem_cons, List.mem_nil_iff, or_false] at hT
    rcases hT with rfl | rfl | rfl <;>
      exact .mk (cs := [.pullValue t]) (pullValueFns_std h _ _) rfl (by simpa using ih)
  | @variant as hne _ ih =>
    cases as with
    | nil => exact absurd rfl hne
    | cons a as =>
      refine .mk (cs := .jsonType _ :: ((a :: as).filter (!·.isMonostate)).map .pullValue) (pullValueFns_std h _ _) rfl
        fun c' hc' => ?_
      rcases List.mem_cons.1 hc' with rfl | hc'
      · exact jsonType_compiles _
      · obtain ⟨b, hb, rfl⟩ := List.mem_map.1 hc'
        obtain ⟨h1, h2⟩ := List.mem_filter.1 hb
        exact ih b h1 (isMonostate_ne h2)
  | @cls c hi hcode =>
    cases hs : P.jsonSpecial c
    · refine .mk (f := .pullCustom) (cs := [.jsonType (.cls c), .pullObject (.cls c)]) (pullValueFns_cls (h.plain hi))
        (by simp [calls, Call.ty, hs]) ?_
      have : P.jsonPull c = true := by simpa [hs] using hcode
      simp only [List.mem_cons, List.mem_nil_iff, or_false, forall_eq_or_imp, forall_eq]
      exact ⟨jsonType_compiles _, .mk (f := .pullObject) (cs := []) (by simp [candidates, jsonBuiltIn_cls, hi])
        (by simp [calls, Call.ty, this]) (by simp)⟩
    · exact .mk (f := .pullCustom) (cs := [.pullValue .string]) (pullValueFns_cls (h.plain hi)) (by simp [calls, Call.ty, hs])
        (by simpa using str)
  | @clsList c hi hm hmm hs hms hb _ ih =>
    have hk : HasKind P c .list := ⟨hi, hm, hmm, hs, hms⟩
    cases hr : P.reservable c
    · exact viaArray (f := .pullUnreservable) (by simp [pullValueFns_cls hk, pullCls, hr]) (Or.inr rfl) (pullArrayFns_cls hk)
        (by simp [calls, elemTy, backInsertable, hb]) ih
    · exact viaArray (f := .pullReservable) (by simp [pullValueFns_cls hk, pullCls, hr]) (Or.inl rfl) (pullArrayFns_cls hk)
        (by simp [calls, elemTy, backInsertable, hb]) ih
  | @clsSet c hm hins _ ih =>
    obtain ⟨k, hk⟩ := h.kind c
    cases k
    case set =>
      cases hr : P.reservable c
      · exact viaArray (f := .pullUnreservable) (by simp [pullValueFns_cls hk, pullCls, hr]) (Or.inr rfl) (pullArrayFns_cls hk)
          (by simp [calls, elemTy, insertable, hins]) ih
      · exact viaArray (f := .pullReservable) (by simp [pullValueFns_cls hk, pullCls, hr]) (Or.inl rfl) (pullArrayFns_cls hk)
          (by simp [calls, elemTy, insertable, hins]) ih
    case multiSet =>
      cases hr : P.reservable c
      · exact viaArray (f := .pullUnreservable) (by simp [pullValueFns_cls hk, pullCls, hr]) (Or.inr rfl) (pullArrayFns_cls hk)
          (by simp [calls, elemTy, insertable, hins]) ih
      · exact viaArray (f := .pullReservable) (by simp [pullValueFns_cls hk, pullCls, hr]) (Or.inl rfl) (pullArrayFns_cls hk)
          (by simp [calls, elemTy, insertable, hins]) ih
    all_goals simp [hk.2.2.2.1, hk.2.2.2.2] at hm
  | @clsMap c hm hkey _ ih =>
    obtain ⟨k, hk⟩ := h.kind c
    have hkey := (fromCString_iff _).2 hkey
    cases k
    case map =>
      exact .mk (f := .pullMap) (cs := [.jsonType (.cls c), .pullValue (P.mapped c)]) (pullValueFns_cls hk)
        (by simp [calls, Call.ty, mapTys, hkey]) (by simpa using ⟨jsonType_compiles _, ih⟩)
    case multiMap =>
      exact .mk (f := .pullMultiMap) (cs := [.jsonType (.cls c), .pullValue (P.mapped c)]) (pullValueFns_cls hk)
        (by simp [calls, Call.ty, mapTys, hkey]) (by simpa using ⟨jsonType_compiles _, ih⟩)
    all_goals simp [hk.2.1, hk.2.2.1] at hm

theorem binNative_number {a : Arith} (h : a ∈ binNumbers) : binNative (.arith a) = true := by
  cases a <;> first | rfl | exact absurd h (by decide)

theorem not_binNative_std {T : Tmpl} {as} (h : T ≠ .basicString) : binNative (.std T as) = false := by
  have : isStdString (.std T as) = false := by
    rw [Bool.eq_false_iff]
    intro e
    have := (isStdString_iff _).1 e
    cases this
    exact h rfl
  simp [binNative, isArith, this]

theorem candidates_write_std {T : Tmpl} {as} (h : T ≠ .basicString) : candidates P (.write (.std T as)) = writeStd T := by
  simp [candidates, not_binNative_std h, writeFns_std]

theorem candidates_write_cls (c) : candidates P (.write (.cls c)) =
    if P.iteratable c then (if P.hasSize c then [.writeIteratable] else []) else [.writeClass] := by
  have : binNative (.cls c) = false := by simp [binNative, isArith, isStdString]
  simp [candidates, this, writeFns_cls]

theorem write_complete {t} (ht : CanToBinary P t) : Compiles P (.write t) := by
  induction ht with
  | @number a ha => exact .mk (f := .writeNative) (cs := []) (by simp [candidates, binNative_number ha]) rfl (by simp)
  | @enum u hu =>
    have hn : binNative (.enum u) = false := by simp [binNative, isArith, isStdString]
    refine .mk (f := .writeEnum) (cs := [.write (.arith u)]) ?_ rfl ?_
    · simp only [candidates, hn]; disp []
    · intro c' hc'
      rw [List.mem_singleton.1 hc']
      exact .mk (f := .writeNative) (cs := []) (by simp [candidates, binNative_number hu]) rfl (by simp)
  | string => exact .mk (f := .writeNative) (cs := []) rfl rfl (by simp)
  | @list T t hT _ ih =>
    simp only [lists, sets, List.cons_append, List.nil_append, List.mem_cons, List.mem_nil_iff, or_false] at hT
    rcases hT with rfl | rfl | rfl | rfl | rfl | rfl | rfl | rfl | rfl <;>
      exact .mk (cs := [.write t]) (candidates_write_std (by decide)) rfl (by simpa using ih)
  | @map T k v hT _ _ ihk ihv =>
    have hp : Compiles P (.write (.std .pair [k, v])) :=
      .mk (cs := [.write k, .write v]) (candidates_write_std (by decide)) rfl (by simpa using ⟨ihk, ihv⟩)
    simp only [maps, List.mem_cons, List.mem_nil_iff, or_false] at hT
    rcases hT with rfl | rfl | rfl | rfl <;>
      exact .mk (cs := [.write (.std .pair [k, v])]) (candidates_write_std (by decide)) rfl (by simpa using hp)
  | @pair a b _ _ iha ihb =>
    exact .mk (cs := [.write a, .write b]) (candidates_write_std (by decide)) rfl (by simpa using ⟨iha, ihb⟩)
  | @nullable T t hT _ ih =>
    simp only [nullables, List.mem_cons, List.mem_nil_iff, or_false] at hT
    rcases hT with rfl | rfl | rfl <;>
      exact .mk (cs := [.write t]) (candidates_write_std (by decide)) rfl (by simpa using ih)
  | @variant as hne hl _ ih =>
    cases as with
    | nil => exact absurd rfl hne
    | cons a as =>
      refine .mk (f := .writeVariant) (cs := ((a :: as).filter (!·.isMonostate)).map .write) (candidates_write_std (by decide))
        (by simp only [calls, Call.ty, hl, if_true]) fun c' hc' => ?_
      obtain ⟨b, hb, rfl⟩ := List.mem_map.1 hc'
      obtain ⟨h1, h2⟩ := List.mem_filter.1 hb
      exact ih b h1 (isMonostate_ne h2)
  | @cls c hi hcode =>
    refine .mk (f := .writeClass) (cs := [.writeCustom (.cls c)]) (by simp [candidates_write_cls, hi]) rfl ?_
    intro c' hc'
    rw [List.mem_singleton.1 hc']
    exact .mk (f := .writeCustom) (cs := []) (by simp [candidates, binBuiltIn_cls, hi]) (by simp [calls, Call.ty, hcode]) (by simp)
  | @clsList c hi hs _ ih =>
    exact .mk (f := .writeIteratable) (cs := [.write (P.elem c)]) (by simp [candidates_write_cls, hi, hs]) rfl (by simpa using ih)

theorem candidates_read_std (h : Sane P) {T : Tmpl} {as} (hT : T ≠ .basicString) :
    candidates P (.read (.std T as)) = readStd T := by
  simp [candidates, not_binNative_std hT, readFns_std h]

theorem candidates_read_cls {c k} (h : HasKind P c k) : candidates P (.read (.cls c)) = readCls P c k := by
  have : binNative (.cls c) = false := by simp [binNative, isArith, isStdString]
  simp [candidates, this, readFns_cls h]

theorem read_complete (h : Sane P) {t} (ht : CanFromBinary P t) : Compiles P (.read t) := by
  have pr : ∀ {k v}, Compiles P (.read k) → Compiles P (.read v) → Compiles P (.read (.std .pair [k, v])) := by
    intro k v hk hv
    exact .mk (cs := [.read k, .read v]) (candidates_read_std h (by decide)) rfl (by simpa using ⟨hk, hv⟩)
  induction ht with
  | @number a ha => exact .mk (f := .readNative) (cs := []) (by simp [candidates, binNative_number ha]) rfl (by simp)
  | @enum u hu =>
    have hn : binNative (.enum u) = false := by simp [binNative, isArith, isStdString]
    obtain ⟨h1, h2, h3, h4, h5⟩ := h.other (t := .enum u) (by simp)
    refine .mk (f := .readEnum) (cs := [.read (.arith u)]) ?_ rfl ?_
    · simp only [candidates, hn]; disp [h1, h2]
    · intro c' hc'
      rw [List.mem_singleton.1 hc']
      exact .mk (f := .readNative) (cs := []) (by simp [candidates, binNative_number hu]) rfl (by simp)
  | string => exact .mk (f := .readNative) (cs := []) rfl rfl (by simp)
  | @list T t hT hb _ ih =>
    have he : elemRefs (.std T [t]) = true := by
      unfold elemRefs
      split
      · next e => cases e; exact absurd ⟨rfl, rfl⟩ hb
      · rfl
    simp only [lists, List.cons_append, List.nil_append, List.mem_cons, List.mem_nil_iff, or_false] at hT
    rcases hT with rfl | rfl | rfl | rfl <;>
      exact .mk (cs := [.read t]) (candidates_read_std h (by decide)) (by simp [calls, Call.ty, elemTy, he]) (by simpa using ih)
  | @set T t hT _ ih =>
    simp only [sets, List.mem_cons, List.mem_nil_iff, or_false] at hT
    rcases hT with rfl | rfl | rfl | rfl <;>
      exact .mk (cs := [.read t]) (candidates_read_std h (by decide)) rfl (by simpa using ih)
  | @map T k v hT _ _ ihk ihv =>
    simp only [maps, List.mem_cons, List.mem_nil_iff, or_false] at hT
    rcases hT with rfl | rfl | rfl | rfl <;>
      exact .mk (cs := [.read (.std .pair [k, v])]) (candidates_read_std h (by decide)) rfl (by simpa using pr ihk ihv)
  | @pair a b _ _ iha ihb => exact pr iha ihb
  | @nullable T t hT _ ih =>
    simp only [nullables, List.mem_cons, List.mem_nil_iff, or_false] at hT
    rcases hT with rfl | rfl | rfl <;>
      exact .mk (cs := [.read t]) (candidates_read_std h (by decide)) rfl (by simpa using ih)
  | @variant as hne _ ih =>
    cases as with
    | nil => exact absurd rfl hne
    | cons a as =>
      refine .mk (f := .readVariant) (cs := ((a :: as).filter (!·.isMonostate)).map .read) (candidates_read_std h (by decide))
        rfl fun c' hc' => ?_
      obtain ⟨b, hb, rfl⟩ := List.mem_map.1 hc'
      obtain ⟨h1, h2⟩ := List.mem_filter.1 hb
      exact ih b h1 (isMonostate_ne h2)
  | @cls c hi hcode =>
    refine .mk (f := .readClass) (cs := [.readCustom (.cls c)]) (candidates_read_cls (h.plain hi)) rfl ?_
    intro c' hc'
    rw [List.mem_singleton.1 hc']
    exact .mk (f := .readCustom) (cs := []) (by simp [candidates, binBuiltIn_cls, hi]) (by simp [calls, Call.ty, hcode]) (by simp)
  | @clsList c hi hm hmm hs hms hr _ ih =>
    have hk : HasKind P c .list := ⟨hi, hm, hmm, hs, hms⟩
    exact .mk (f := .readResizable) (cs := [.read (P.elem c)]) (by simp [candidates_read_cls hk, readCls, hr]) rfl
      (by simpa using ih)
  | @clsSet c hi hm hmm hor hins _ ih =>
    obtain ⟨k, hk⟩ := h.kind c
    have : candidates P (.read (.cls c)) = [.readOther] := by
      rw [candidates_read_cls hk]
      cases k
      case plain => exact absurd hk.1 (by simp [hi])
      case map => exact absurd hk.2.1 (by simp [hm])
      case multiMap => exact absurd hk.2.2.1 (by simp [hmm])
      case list =>
        have : P.resizable c = false := by
          rcases hor with e | e | e
          · simp [hk.2.2.2.1] at e
          · simp [hk.2.2.2.2] at e
          · exact e
        simp [readCls, this]
      case set => rfl
      case multiSet => rfl
    exact .mk (f := .readOther) (cs := [.read (P.elem c)]) this (by simp [calls, Call.ty, elemTy, insertable, hins])
      (by simpa using ih)
  | @clsMap c hm _ _ ihk ihv =>
    obtain ⟨k, hk⟩ := h.kind c
    have : candidates P (.read (.cls c)) = [.readMap] := by
      rw [candidates_read_cls hk]
      cases k
      case map => rfl
      case multiMap => rfl
      all_goals simp [hk.2.1, hk.2.2.1] at hm
    exact .mk (f := .readMap) (cs := [.read (.std .pair [P.key c, P.mapped c])]) this rfl (by simpa using pr ihk ihv)

end Verif.Dispatch
