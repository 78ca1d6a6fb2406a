import Verif.Lemmas.Dispatch
import Verif.Spec.JsonObjectTypes
import Verif.Spec.BinTypes
import Verif.Demo

/-!
# C62: which C++ types can be (de)serialised and by which overload
-/

namespace Verif.Dispatch

variable {P : Program}

/-! ## Supported types -/

theorem CanToJson.all (h : Sane P) {t} (ht : CanToJson P t) :
    Compiles P (.pushValue t) ∧ Compiles P (.pushArray t) ∧ Compiles P (.pushMember t) :=
  ⟨push_complete h ht, (push_elem h (push_complete h ht)).1, (push_elem h (push_complete h ht)).2⟩

/-- **C62**: a call of `push` for a value, an array element or an object member compiles if and only if the type is among the
supported ones. -/
theorem C62_json_write_iff (h : Sane P) (t : CppTy) :
    (Compiles P (.pushValue t) ↔ CanToJson P t) ∧ (Compiles P (.pushArray t) ↔ CanToJson P t) ∧
      (Compiles P (.pushMember t) ↔ CanToJson P t) :=
  ⟨⟨sound h, fun ht => (ht.all h).1⟩, ⟨sound h, fun ht => (ht.all h).2.1⟩, ⟨sound h, fun ht => (ht.all h).2.2⟩⟩

/-- **C62**: a call of `pull` compiles if and only if the type is among the supported ones. -/
theorem C62_json_read_iff (h : Sane P) (t : CppTy) : Compiles P (.pullValue t) ↔ CanFromJson P t :=
  ⟨sound h, pull_complete h⟩

theorem writeVersion_iff (h : Sane P) (t : CppTy) : Compiles P (.writeVersion t) ↔ CanToBinary P t := by
  refine ⟨sound h, fun ht => ?_⟩
  have hw := write_complete ht
  cases hb : binBuiltIn P t
  · refine .mk (f := .writeClass) (cs := [.writeCustom t]) (by simp [candidates, writeVersionFns, enabled, hb]) rfl ?_
    cases hw with
    | @mk _ f cs hf hc ih =>
      simp only [candidates] at hf
      have hn : binNative t = false := by
        cases e : binNative t
        · rfl
        · simp [binBuiltIn, e] at hb
      rw [hn] at hf
      have hm : .writeClass ∈ writeFns P t := by simp [writeFns, enabled, hb]
      have : f = .writeClass := by
        have hm' := hf ▸ (by simpa using hm : Fn.writeClass ∈ (if false = true then [Fn.writeNative] else writeFns P t))
        simpa [eq_comm] using hm'
      subst this
      cases hc
      simpa [Call.ty] using ih
  · exact .mk (f := .writeBuiltInVersion) (cs := [.write t]) (by simp [candidates, writeVersionFns, enabled, hb]) rfl
      (by simpa using hw)

theorem readVersion_iff (h : Sane P) (t : CppTy) : Compiles P (.readVersion t) ↔ CanFromBinary P t := by
  refine ⟨sound h, fun ht => ?_⟩
  have hw := read_complete h ht
  cases hb : binBuiltIn P t
  · refine .mk (f := .readClass) (cs := [.readCustom t]) (by simp [candidates, readVersionFns, enabled, hb]) rfl ?_
    cases hw with
    | @mk _ f cs hf hc ih =>
      simp only [candidates] at hf
      have hn : binNative t = false := by
        cases e : binNative t
        · rfl
        · simp [binBuiltIn, e] at hb
      rw [hn] at hf
      have hm : .readClass ∈ readFns P t := by simp [readFns, enabled, hb]
      have : f = .readClass := by
        have hm' := hf ▸ (by simpa using hm : Fn.readClass ∈ (if false = true then [Fn.readNative] else readFns P t))
        simpa [eq_comm] using hm'
      subst this
      cases hc
      simpa [Call.ty] using ih
  · exact .mk (f := .readBuiltInVersion) (cs := [.read t]) (by simp [candidates, readVersionFns, enabled, hb]) rfl
      (by simpa using hw)

/-- **C62**: a call of `BinarySerializer::write`, with or without version, compiles if and only if the type is among the supported
ones. -/
theorem C62_binary_write_iff (h : Sane P) (t : CppTy) :
    (Compiles P (.write t) ↔ CanToBinary P t) ∧ (Compiles P (.writeVersion t) ↔ CanToBinary P t) :=
  ⟨⟨sound h, write_complete⟩, writeVersion_iff h t⟩

/-- **C62**: a call of `BinaryDeserializer::read`, with or without version, compiles if and only if the type is among the
supported ones. -/
theorem C62_binary_read_iff (h : Sane P) (t : CppTy) :
    (Compiles P (.read t) ↔ CanFromBinary P t) ∧ (Compiles P (.readVersion t) ↔ CanFromBinary P t) :=
  ⟨⟨sound h, read_complete h⟩, readVersion_iff h t⟩

/-! ## `toJson` and `fromJson` -/

theorem not_serializable_std (h : Sane P) (T as) : isJsonSerializable P (.std T as) = false := by
  simp [isJsonSerializable, (h.std T as).2.2.2.2]

/-- `toJsonDocument` for specialisations of standard templates -/
def docStd (e : Bool) (as : List CppTy) : Tmpl → List Fn
  | .basicString => if e && isStdString (.std .basicString as) then [.docString] else []
  | .basicStringView => if e && isStdStringView (.std .basicStringView as) then [.docStringView, .docArray] else [.docArray]
  | .vector | .list | .deque | .forwardList | .array => [.docArray]
  | .map | .unorderedMap | .multimap | .unorderedMultimap => [.docObject]
  | _ => []

theorem toDocumentFns_std (h : Sane P) (e T as) : toDocumentFns P e (.std T as) = docStd e as T := by
  obtain ⟨h1, h2, h3, h4, h5⟩ := h.std T as
  have hj := not_serializable_std h T as
  have hs : ∀ T, T ≠ .basicString → isStdString (.std T as) = false := by
    intro T hT
    rw [Bool.eq_false_iff, Ne, isStdString_iff]
    intro e; cases e; exact hT rfl
  have hv : ∀ T, T ≠ .basicStringView → isStdStringView (.std T as) = false := by
    intro T hT
    rw [Bool.eq_false_iff, Ne, isStdStringView_iff]
    intro e; cases e; exact hT rfl
  have hs' := hs T
  have hv' := hv T
  cases T <;> cases e <;> cases hs'' : isStdString (.std .basicString as) <;>
    cases hv'' : isStdStringView (.std .basicStringView as) <;>
    simp_all [toDocumentFns, docStd, enabled, isMapOrHash, isMultiMapOrHash, spec, isIntegral, isFloatingPoint, isConstCharPtr, isArray,
      isSet, isMultiSet, isIteratable, Tmpl.iteratable]

/-- whether `toJson`/`fromJson` treat a class as object -/
theorem isJsonSerializable_iff (c) : isJsonSerializable P (.cls c) = true ↔
    P.derivesJson c = true ∨ P.adaptedJson (.cls c) = true ∨ P.complete c = false := by
  cases h1 : P.complete c <;> cases h2 : P.derivesJson c <;> cases h3 : P.adaptedJson (.cls c) <;>
    simp [isJsonSerializable, h1, h2, h3]

/-- kind of a class at top level -/
theorem toDocumentFns_cls (h : Sane P) (e c) :
    (TopLevel P (.cls c) ∧ (toDocumentFns P e (.cls c) = [.docObject] ∨ toDocumentFns P e (.cls c) = [.docArray])) ∨
    (¬TopLevel P (.cls c) ∧ toDocumentFns P e (.cls c) = []) := by
  cases hj : isJsonSerializable P (.cls c)
  · obtain ⟨k, hk⟩ := h.kind c
    have hn : ∀ {p : Prop}, (P.derivesJson c = true ∨ P.adaptedJson (.cls c) = true ∨ P.complete c = false) → p := by
      intro p e
      rw [← isJsonSerializable_iff, hj] at e
      cases e
    cases k <;> obtain ⟨h1, h2, h3, h4, h5⟩ := hk
    · refine Or.inr ⟨?_, by simp [toDocumentFns, enabled, hj, isMapOrHash, isMultiMapOrHash, spec, isIntegral, isFloatingPoint,
        isStdString, isConstCharPtr, isStdStringView, isArray, isIteratable, h1, h2, h3]⟩
      intro ht
      cases ht with
      | serializable _ e => exact hn e
      | clsList _ e => simp [h1] at e
    · exact Or.inl ⟨.clsList c h1 h4 h5, by simp [toDocumentFns, enabled, hj, isMapOrHash, isMultiMapOrHash, spec, isIntegral,
        isFloatingPoint, isStdString, isConstCharPtr, isStdStringView, isArray, isSet, isMultiSet, isIteratable, h1, h2, h3, h4, h5]⟩
    · exact Or.inl ⟨.clsList c h1 h4 h5, by simp [toDocumentFns, enabled, hj, isMapOrHash, isMultiMapOrHash, spec, isIntegral,
        isFloatingPoint, isStdString, isConstCharPtr, isStdStringView, isArray, isSet, isMultiSet, isIteratable, h1, h2, h3, h4, h5]⟩
    · exact Or.inl ⟨.clsList c h1 h4 h5, by simp [toDocumentFns, enabled, hj, isMapOrHash, isMultiMapOrHash, spec, isIntegral,
        isFloatingPoint, isStdString, isConstCharPtr, isStdStringView, isArray, isSet, isMultiSet, isIteratable, h1, h2, h3, h4, h5]⟩
    · refine Or.inr ⟨?_, by simp [toDocumentFns, enabled, hj, isMapOrHash, isMultiMapOrHash, spec, isIntegral, isFloatingPoint,
        isStdString, isConstCharPtr, isStdStringView, isArray, isSet, isMultiSet, isIteratable, h1, h2, h3, h4, h5]⟩
      intro ht
      cases ht with
      | serializable _ e => exact hn e
      | clsList _ _ e => simp [h4] at e
    · refine Or.inr ⟨?_, by simp [toDocumentFns, enabled, hj, isMapOrHash, isMultiMapOrHash, spec, isIntegral, isFloatingPoint,
        isStdString, isConstCharPtr, isStdStringView, isArray, isSet, isMultiSet, isIteratable, h1, h2, h3, h4, h5]⟩
      intro ht
      cases ht with
      | serializable _ e => exact hn e
      | clsList _ _ _ e => simp [h5] at e
  · have hi := (h.json c ((isJsonSerializable_iff c).1 hj)).1
    obtain ⟨h2, h3, h4, h5⟩ := h.cls c hi
    exact Or.inl ⟨.serializable c ((isJsonSerializable_iff c).1 hj), by simp [toDocumentFns, enabled, hj, isMapOrHash, isMultiMapOrHash,
      spec, isIntegral, isFloatingPoint, isStdString, isConstCharPtr, isStdStringView, isArray, isSet, isMultiSet, isIteratable, hi, h2,
      h3, h4, h5]⟩

theorem pushed {t f} (hf : f = .docObject ∨ f = .docArray) : calls P t f = some [.pushValue t] := by
  rcases hf with rfl | rfl <;> rfl

theorem toDocumentFns_arith (h : Sane P) (e a) : toDocumentFns P e (.arith a) = [.docArith] := by
  obtain ⟨h1, h2, h3, h4, h5⟩ := h.other (t := .arith a) (by simp)
  cases a <;> simp [toDocumentFns, enabled, isJsonSerializable, isMapOrHash, isMultiMapOrHash, spec, isIntegral, isFloatingPoint,
    isStdString, isConstCharPtr, isStdStringView, isArray, isIteratable, h1, h2, h5]

theorem toDocumentFns_enum (h : Sane P) (e u) : toDocumentFns P e (.enum u) = [] := by
  obtain ⟨h1, h2, h3, h4, h5⟩ := h.other (t := .enum u) (by simp)
  simp [toDocumentFns, enabled, isJsonSerializable, isMapOrHash, isMultiMapOrHash, spec, isIntegral, isFloatingPoint,
    isStdString, isConstCharPtr, isStdStringView, isArray, isIteratable, h1, h2, h5]

theorem toDocumentFns_mono (h : Sane P) (e) : toDocumentFns P e .monostate = [] := by
  obtain ⟨h1, h2, h3, h4, h5⟩ := h.other (t := .monostate) (by simp)
  simp [toDocumentFns, enabled, isJsonSerializable, isMapOrHash, isMultiMapOrHash, spec, isIntegral, isFloatingPoint,
    isStdString, isConstCharPtr, isStdStringView, isArray, isIteratable, h1, h2, h5]

theorem toDocumentFns_ptr (h : Sane P) (e b t) :
    toDocumentFns P e (.ptr b t) = if e && isConstCharPtr (.ptr b t) then [.docCString] else [] := by
  obtain ⟨h1, h2, h3, h4, h5⟩ := h.other (t := .ptr b t) (by simp)
  cases e <;> cases hc : isConstCharPtr (.ptr b t) <;>
  simp [toDocumentFns, enabled, isJsonSerializable, isMapOrHash, isMultiMapOrHash, spec, isIntegral, isFloatingPoint,
    isStdString, isStdStringView, isArray, isIteratable, h1, h2, h5, hc]

theorem rapidJsonAccessor_iff (a) : rapidJsonAccessor (.arith a) = true ↔ a ∈ jsonNumbers := by
  cases a <;> simp [rapidJsonAccessor, jsonNumbers]

/-- The overloads of `toJsonDocument` by type (without template argument). -/
theorem toDocument_cases (h : Sane P) (t : CppTy) :
    (∃ a, t = .arith a ∧ toDocumentFns P false t = [.docArith]) ∨
    (∃ f, toDocumentFns P false t = [f] ∧ (f = .docObject ∨ f = .docArray) ∧ (TopLevel P t ∨ (∃ as, t = .std .basicStringView as ∧
      isStdStringView t = false))) ∨
    (toDocumentFns P false t = [] ∧ ¬TopLevel P t) := by
  cases t with
  | arith a => exact Or.inl ⟨a, rfl, toDocumentFns_arith h _ _⟩
  | enum u => exact Or.inr (Or.inr ⟨toDocumentFns_enum h _ _, by intro e; cases e⟩)
  | monostate => exact Or.inr (Or.inr ⟨toDocumentFns_mono h _, by intro e; cases e⟩)
  | ptr b t => exact Or.inr (Or.inr ⟨by simp [toDocumentFns_ptr h], by intro e; cases e⟩)
  | cls c =>
    rcases toDocumentFns_cls h false c with ⟨h1, h2 | h2⟩ | ⟨h1, h2⟩
    · exact Or.inr (Or.inl ⟨_, h2, Or.inl rfl, Or.inl h1⟩)
    · exact Or.inr (Or.inl ⟨_, h2, Or.inr rfl, Or.inl h1⟩)
    · exact Or.inr (Or.inr ⟨h2, h1⟩)
  | std T as =>
    have hd := toDocumentFns_std h false T as
    have no : ∀ T : Tmpl, T ∉ lists ++ [.forwardList, .array] → T ∉ maps → T ≠ .basicStringView → ¬TopLevel P (.std T as) := by
      intro T h1 h2 h3 ht
      cases ht with
      | list _ _ e => exact h1 e
      | map _ _ e => exact h2 e
      | stringView => exact h3 rfl
    cases T <;> simp only [docStd, Bool.false_and] at hd
    case basicStringView =>
      refine Or.inr (Or.inl ⟨_, hd, Or.inr rfl, ?_⟩)
      cases hv : isStdStringView (.std .basicStringView as)
      · exact Or.inr ⟨as, rfl, rfl⟩
      · rw [(isStdStringView_iff _).1 hv]
        exact Or.inl .stringView
    all_goals
      first
      | exact Or.inr (Or.inr ⟨hd, no _ (by decide) (by decide) (by decide)⟩)
      | exact Or.inr (Or.inl ⟨_, hd, Or.inl rfl, Or.inl (.map _ _ (by decide))⟩)
      | exact Or.inr (Or.inl ⟨_, hd, Or.inr rfl, Or.inl (.list _ _ (by decide))⟩)

/-- other string views are not supported -/
theorem not_wide {as} (hv : isStdStringView (.std .basicStringView as) = false) :
    ¬CanToJson P (.std .basicStringView as) ∧ ¬CanFromJson P (.std .basicStringView as) := by
  constructor <;> intro ht <;> cases ht with
  | text e =>
    rcases e with e | e | e
    · cases e
    · rw [(isStdStringView_iff _).2 e] at hv; cases hv
    · cases e
  | nullable e => simp [nullables] at e
  | map e => simp [maps] at e
  | list e => simp [lists, sets] at e
  | _ => first | (rename_i e _; simp [sets] at e; done) | (rename_i e; simp [sets] at e)

theorem toDocument_iff (h : Sane P) (t : CppTy) : Compiles P (.toDocument false t) ↔ CanToJson P t ∧ TopLevel P t := by
  rcases toDocument_cases h t with ⟨a, rfl, hf⟩ | ⟨f, hf, hd, ht⟩ | ⟨hf, ht⟩
  · constructor
    · rintro (⟨hf', hc, -⟩)
      have e := hf.symm.trans hf'
      cases e
      have : a ∈ jsonNumbers := by
        rw [← rapidJsonAccessor_iff]
        cases hr : rapidJsonAccessor (.arith a)
        · simp [calls, Call.ty, hr] at hc
        · rfl
      exact ⟨.number this, .number this⟩
    · rintro ⟨-, ht⟩
      cases ht with
      | number ha => exact .mk hf (by simp [calls, Call.ty, (rapidJsonAccessor_iff a).2 ha]; rfl) (by simp)
  · constructor
    · rintro (⟨hf', hc, ih⟩)
      have e := hf.symm.trans hf'
      cases e
      rw [pushed hd] at hc
      cases hc
      have hj : CanToJson P t := sound h (ih (.pushValue t) (by simp [Call.ty]))
      rcases ht with ht | ⟨as, rfl, hv⟩
      · exact ⟨hj, ht⟩
      · exact absurd hj (not_wide hv).1
    · rintro ⟨hj, -⟩
      exact .mk hf (pushed hd) (by simpa [Call.ty] using push_complete h hj)
  · constructor
    · rintro (⟨hf', hc, ih⟩)
      have e := hf.symm.trans hf'
      cases e
    · rintro ⟨-, e⟩
      exact absurd e ht

/-- **C62**: `toJson` and `toJsonDocument` compile if and only if the type can be serialised and is one of the types supported as
a document. In particular there is no `toJson` for `std::string` and C-strings although its declaration admits them. -/
theorem C62_toJson_iff (h : Sane P) (t : CppTy) :
    (Compiles P (.toJson t) ↔ CanToJson P t ∧ TopLevel P t) ∧
    (Compiles P (.toDocument false t) ↔ CanToJson P t ∧ TopLevel P t) := by
  refine ⟨⟨?_, fun ht => ?_⟩, toDocument_iff h t⟩
  · rintro (⟨hf, hc, ih⟩)
    have : calls P (Call.ty (.toJson t)) .toJson = some [.toDocument false t] := rfl
    have hm : ∀ f, toJsonFns P t = [f] → f = .toJson := by
      intro f hf
      simp only [toJsonFns, enabled] at hf
      cases hb : (isJsonSerializable P t || isMapOrHash P t || isMultiMapOrHash P t || isIntegral t || isFloatingPoint t || isString t ||
        isArray P t) <;> simp [hb] at hf
      exact hf.symm
    cases hm _ hf
    rw [this] at hc
    cases hc
    exact (toDocument_iff h t).1 (ih _ (by simp))
  · have hd := (toDocument_iff h t).2 ht
    refine .mk (f := .toJson) (cs := [.toDocument false t]) ?_ rfl (by simpa using hd)
    rcases hd with ⟨hf, -, -⟩
    simp only [candidates, toDocumentFns, enabled] at hf
    simp only [candidates, toJsonFns, enabled]
    cases h1 : isJsonSerializable P t <;> cases h2 : isMapOrHash P t <;> cases h3 : isMultiMapOrHash P t <;>
      cases h4 : isIntegral t <;> cases h5 : isFloatingPoint t <;> cases h6 : isArray P t <;> simp_all

theorem string_cases (h : Sane P) : toDocumentFns P true .string = [.docString] ∧ toDocumentFns P true .constCharPtr = [.docCString] ∧
    toDocumentFns P true .stringView = [.docStringView, .docArray] :=
  ⟨toDocumentFns_std h _ _ _, toDocumentFns_ptr h _ _ _, toDocumentFns_std h _ _ _⟩

theorem toDocumentFns_explicit {t : CppTy} (h1 : t ≠ .string) (h2 : t ≠ .constCharPtr) (h3 : t ≠ .stringView) :
    toDocumentFns P true t = toDocumentFns P false t := by
  have h1 : isStdString t = false := by rwa [Bool.eq_false_iff, Ne, isStdString_iff]
  have h2 : isConstCharPtr t = false := by rwa [Bool.eq_false_iff, Ne, isConstCharPtr_iff]
  have h3 : isStdStringView t = false := by rwa [Bool.eq_false_iff, Ne, isStdStringView_iff]
  simp [toDocumentFns, h1, h2, h3]

/-- **C62**: with explicit template argument `toJsonDocument` supports `std::string` and C-strings but not `std::string_view`. -/
theorem C62_toJsonDocument_explicit_iff (h : Sane P) (t : CppTy) :
    Compiles P (.toDocument true t) ↔
      t = .string ∨ t = .constCharPtr ∨ CanToJson P t ∧ TopLevel P t ∧ t ≠ .stringView := by
  obtain ⟨s1, s2, s3⟩ := string_cases h
  by_cases h1 : t = .string
  · subst h1
    exact ⟨fun _ => Or.inl rfl, fun _ => .mk s1 rfl (by simp)⟩
  by_cases h2 : t = .constCharPtr
  · subst h2
    exact ⟨fun _ => Or.inr (Or.inl rfl), fun _ => .mk s2 rfl (by simp)⟩
  by_cases h3 : t = .stringView
  · subst h3
    refine ⟨?_, ?_⟩
    · rintro (⟨hf, -, -⟩)
      have e := s3.symm.trans hf
      cases e
    · rintro (e | e | ⟨-, -, e⟩)
      · cases e
      · cases e
      · exact absurd rfl e
  have he := toDocumentFns_explicit (P := P) h1 h2 h3
  have : Compiles P (.toDocument true t) ↔ Compiles P (.toDocument false t) := by
    constructor <;> rintro (⟨hf, hc, ih⟩)
    · exact .mk (he.symm.trans hf) hc ih
    · exact .mk (he.trans hf) hc ih
  rw [this, toDocument_iff h]
  simp [h1, h2, h3]

/-- overloads of `fromJson` in terms of those of `toJsonDocument` -/
def fromFn : Fn → Fn
  | .docObject => .fromObject
  | .docArith => .fromArith
  | _ => .fromArray

theorem fromJsonFns_eq {t : CppTy} (h : t ≠ .string) : fromJsonFns P t = (toDocumentFns P false t).map fromFn := by
  have h1 : isStdString t = false := by rwa [Bool.eq_false_iff, Ne, isStdString_iff]
  simp only [fromJsonFns, toDocumentFns, enabled, h1]
  generalize (isJsonSerializable P t || isMapOrHash P t || isMultiMapOrHash P t) = a
  generalize (isIntegral t || isFloatingPoint t) = b
  generalize isArray P t = c
  cases a <;> cases b <;> cases c <;> rfl

/-- **C62**: `fromJson` compiles if and only if the type is `std::string` or can be deserialised and is one of the types supported
as a document. -/
theorem C62_fromJson_iff (h : Sane P) (t : CppTy) :
    Compiles P (.fromJson t) ↔ t = .string ∨ CanFromJson P t ∧ TopLevel P t := by
  by_cases h1 : t = .string
  · subst h1
    refine ⟨fun _ => Or.inl rfl, fun _ => .mk (f := .fromString) (cs := [.jsonType .string]) ?_ rfl (by simpa using jsonType_compiles _)⟩
    obtain ⟨h1, h2, h3, h4, h5⟩ := h.std .basicString [.arith .char]
    simp [candidates, fromJsonFns, enabled, isJsonSerializable, isMapOrHash, isMultiMapOrHash, spec, isIntegral, isFloatingPoint,
      isStdString, isArray, h1, h2, h5]
  have he := fromJsonFns_eq (P := P) h1
  simp only [h1, false_or]
  rcases toDocument_cases h t with ⟨a, rfl, hf⟩ | ⟨f, hf, hd, ht⟩ | ⟨hf, ht⟩ <;> rw [hf] at he
  · constructor
    · rintro (⟨hf', hc, -⟩)
      have e := he.symm.trans hf'
      cases e
      have : a ∈ jsonNumbers := by
        rw [← rapidJsonAccessor_iff]
        cases hr : rapidJsonAccessor (.arith a)
        · simp [fromFn, calls, Call.ty, hr] at hc
        · rfl
      exact ⟨.number this, .number this⟩
    · rintro ⟨-, ht⟩
      cases ht with
      | number ha =>
        exact .mk (f := .fromArith) (cs := [.jsonType (.arith a)]) he (by simp [calls, Call.ty, (rapidJsonAccessor_iff a).2 ha])
          (by simpa using jsonType_compiles _)
  · have hb : calls P t (fromFn f) = some [.jsonType t, .pullValue t] := by rcases hd with rfl | rfl <;> rfl
    constructor
    · rintro (⟨hf', hc, ih⟩)
      have e := he.symm.trans hf'
      cases e
      rw [Call.ty, hb] at hc
      cases hc
      have hj : CanFromJson P t := sound h (ih (.pullValue t) (by simp))
      rcases ht with ht | ⟨as, rfl, hv⟩
      · exact ⟨hj, ht⟩
      · exact absurd hj (not_wide hv).2
    · rintro ⟨hj, -⟩
      exact .mk he hb (by simpa using ⟨jsonType_compiles _, pull_complete h hj⟩)
  · constructor
    · rintro (⟨hf', hc, ih⟩)
      have e := he.symm.trans hf'
      cases e
    · rintro ⟨-, e⟩
      exact absurd e ht

/-! ## No ambiguities -/

theorem pullValueFns_le_one (h : Sane P) (t) : (pullValueFns P t).length ≤ 1 := by
  cases t with
  | arith a => rw [pullValueFns_arith h]; cases a <;> simp [pullArith]
  | enum u => rw [pullValueFns_enum h]; simp
  | ptr b t => rw [pullValueFns_ptr h]; split <;> simp
  | std T as => rw [pullValueFns_std h]; cases T <;> simp [pullStd] <;> split <;> simp
  | monostate => rw [pullValueFns_mono h]; simp
  | cls c =>
    obtain ⟨k, hk⟩ := h.kind c
    rw [pullValueFns_cls hk]
    cases k <;> simp [pullCls] <;> split <;> simp

theorem one_of {b : Bool} (f g : Fn) : (enabled [(f, b), (g, !b)]).length ≤ 1 := by cases b <;> simp [enabled]

/-- **C62**: no call is ambiguous, except for `toJsonDocument<std::string_view>(…)`. -/
theorem C62_unambiguous (h : Sane P) (c : Call) (hc : c ≠ .toDocument true .stringView) : (candidates P c).length ≤ 1 := by
  cases c with
  | pushValue t => exact pushValueFns_le_one h t
  | pushPointee t => exact Nat.le_trans (List.length_filter_le ..) (pushValueFns_le_one h t)
  | pushArray t => exact one_of _ _
  | pushMember t => exact one_of _ _
  | pushObject t =>
    simp only [candidates]
    split
    · simp
    · split
      · exact pushValueFns_le_one h t
      · simp
  | pullValue t => exact pullValueFns_le_one h t
  | pullArray t =>
    simp only [candidates]
    have : (pullArrayFns P t).length ≤ 1 := by
      cases t with
      | std T as => rw [pullArrayFns_std h]; cases T <;> simp [pullArrStd]
      | cls c => obtain ⟨k, hk⟩ := h.kind c; rw [pullArrayFns_cls hk]; cases k <;> simp [pullArrCls]
      | _ => rw [pullArrayFns_other h (by simp) (by simp)]; simp
    split
    · split
      · exact pullValueFns_le_one h t
      · simp
    · exact this
  | pullObject t =>
    simp only [candidates]
    split
    · simp
    · split
      · exact pullValueFns_le_one h t
      · simp
  | jsonType t =>
    rcases jsonType_compiles (P := P) t with ⟨hf, -, -⟩
    simp [hf]
  | toDocument e t =>
    have : (toDocumentFns P false t).length ≤ 1 := by
      rcases toDocument_cases h t with ⟨a, -, hf⟩ | ⟨f, hf, -⟩ | ⟨hf, -⟩ <;> simp [hf]
    cases e with
    | false => exact this
    | true =>
      obtain ⟨s1, s2, s3⟩ := string_cases h
      by_cases h1 : t = .string
      · subst h1; simp [candidates, s1]
      by_cases h2 : t = .constCharPtr
      · subst h2; simp [candidates, s2]
      have h3 : t ≠ .stringView := by rintro rfl; exact hc rfl
      simpa [candidates, toDocumentFns_explicit (P := P) h1 h2 h3] using this
  | toJson t =>
    simp only [candidates, toJsonFns, enabled, List.length_map]
    exact Nat.le_trans (List.length_filter_le ..) (by simp)
  | fromJson t =>
    by_cases h1 : t = .string
    · subst h1
      obtain ⟨h1, h2, h3, h4, h5⟩ := h.std .basicString [.arith .char]
      simp [candidates, fromJsonFns, enabled, isJsonSerializable, isMapOrHash, isMultiMapOrHash, spec, isIntegral, isFloatingPoint,
        isStdString, isArray, h1, h2, h5]
    · simp only [candidates, fromJsonFns_eq h1, List.length_map]
      rcases toDocument_cases h t with ⟨a, -, hf⟩ | ⟨f, hf, -⟩ | ⟨hf, -⟩ <;> simp [hf]
  | write t =>
    simp only [candidates]
    split
    · simp
    · cases t with
      | std T as => rw [writeFns_std]; cases T <;> simp [writeStd]
      | cls c => rw [writeFns_cls]; split <;> [split; skip] <;> simp
      | arith a => cases a <;> disp []
      | _ => disp []
  | writeVersion t => exact one_of _ _
  | writeCustom t => simp only [candidates]; split <;> simp
  | read t =>
    simp only [candidates]
    split
    · simp
    · cases t with
      | std T as => rw [readFns_std h]; cases T <;> simp [readStd]
      | cls c => obtain ⟨k, hk⟩ := h.kind c; rw [readFns_cls hk]; cases k <;> simp [readCls]; split <;> simp
      | arith a => obtain ⟨h1, h2, h3, h4, h5⟩ := h.other (t := .arith a) (by simp); cases a <;> disp [h1, h2]
      | enum u => obtain ⟨h1, h2, h3, h4, h5⟩ := h.other (t := .enum u) (by simp); disp [h1, h2]
      | ptr b t => obtain ⟨h1, h2, h3, h4, h5⟩ := h.other (t := .ptr b t) (by simp); disp [h1, h2]
      | monostate => obtain ⟨h1, h2, h3, h4, h5⟩ := h.other (t := .monostate) (by simp); disp [h1, h2]
  | readVersion t => exact one_of _ _
  | readCustom t => simp only [candidates]; split <;> simp

/-- **C62**: the exception. -/
theorem C62_string_view_ambiguous (h : Sane P) :
    candidates P (.toDocument true .stringView) = [.docStringView, .docArray] ∧ ¬Compiles P (.toDocument true .stringView) ∧
    Compiles P (.toDocument false .stringView) := by
  refine ⟨(string_cases h).2.2, fun hc => ?_, (toDocument_iff h _).2 ⟨.text (by simp), .stringView⟩⟩
  rcases (C62_toJsonDocument_explicit_iff h _).1 hc with e | e | ⟨-, -, e⟩
  · cases e
  · cases e
  · exact e rfl

/-! ## Wrong declarations -/

theorem mem_enabled {f : Fn} {fs : List (Fn × Bool)} : f ∈ enabled fs ↔ (f, true) ∈ fs := by
  simp [enabled]

theorem not_compiles_of_two {c : Call} {f g : Fn} (hf : f ∈ candidates P c) (hg : g ∈ candidates P c) (hne : f ≠ g) : ¬Compiles P c := by
  rintro (⟨h, -, -⟩)
  rw [h] at hf hg
  simp only [List.mem_singleton] at hf hg
  exact hne (hf.trans hg.symm)

/-- **C62**: a container for which two different `TREAT_AS` macros have been used can not be deserialised from JSON. -/
theorem C62_conflicting_marks (P : Program) (t : CppTy)
    (h : 2 ≤ [P.treatAsMap t, P.treatAsMultiMap t, P.treatAsSet t, P.treatAsMultiSet t].count true) : ¬Compiles P (.pullValue t) := by
  have hset : (P.treatAsSet t = true ∨ P.treatAsMultiSet t = true) →
      (.pullUnreservable ∈ pullValueFns P t ∨ .pullReservable ∈ pullValueFns P t) := by
    intro e
    have : isArrayOrSet P t = true := by rcases e with e | e <;> simp [isArrayOrSet, e]
    cases hr : isReservable P t
    · exact Or.inl (by simp [pullValueFns, mem_enabled, this, hr])
    · exact Or.inr (by simp [pullValueFns, mem_enabled, this, hr])
  have hmap : P.treatAsMap t = true → .pullMap ∈ pullValueFns P t := by
    intro e; simp [pullValueFns, mem_enabled, isMapOrHash, e]
  have hmm : P.treatAsMultiMap t = true → .pullMultiMap ∈ pullValueFns P t := by
    intro e; simp [pullValueFns, mem_enabled, isMultiMapOrHash, e]
  cases a : P.treatAsMap t
  case true =>
    cases b : P.treatAsMultiMap t
    case true => exact not_compiles_of_two (c := .pullValue t) (hmap a) (hmm b) (by decide)
    case false =>
      have : P.treatAsSet t = true ∨ P.treatAsMultiSet t = true := by
        cases c : P.treatAsSet t <;> cases d : P.treatAsMultiSet t <;> simp [a, b, c, d] at h <;> simp
      rcases hset this with e | e
      · exact not_compiles_of_two (c := .pullValue t) (hmap a) e (by decide)
      · exact not_compiles_of_two (c := .pullValue t) (hmap a) e (by decide)
  case false =>
    cases b : P.treatAsMultiMap t
    case true =>
      have : P.treatAsSet t = true ∨ P.treatAsMultiSet t = true := by
        cases c : P.treatAsSet t <;> cases d : P.treatAsMultiSet t <;> simp [a, b, c, d] at h <;> simp
      rcases hset this with e | e
      · exact not_compiles_of_two (c := .pullValue t) (hmm b) e (by decide)
      · exact not_compiles_of_two (c := .pullValue t) (hmm b) e (by decide)
    case false =>
      have hc : P.treatAsSet t = true := by
        cases c : P.treatAsSet t <;> cases d : P.treatAsMultiSet t <;> simp [a, b, c, d] at h; rfl
      have hd : P.treatAsMultiSet t = true := by
        cases d : P.treatAsMultiSet t <;> simp [a, b, hc, d] at h; rfl
      rintro (⟨hf, hb, ih⟩)
      have h1 : .pullIntoSet ∈ pullArrayFns P t := by simp [pullArrayFns, mem_enabled, isSet, hc]
      have h2 : .pullIntoMultiSet ∈ pullArrayFns P t := by simp [pullArrayFns, mem_enabled, isMultiSet, hd]
      have hn : ¬Compiles P (.pullArray t) := by
        refine not_compiles_of_two (f := .pullIntoSet) (g := .pullIntoMultiSet) ?_ ?_ (by decide)
        all_goals
          simp only [candidates]
          split
          · next e => rw [e] at h1; cases h1
          · assumption
      have hf : pullValueFns P t = [_] := hf
      rcases hset (Or.inl hc) with e | e <;> rw [hf] at e <;> simp only [List.mem_singleton] at e <;> subst e <;> cases hb <;>
        exact hn (ih _ (by simp [Call.ty]))

/-- **C62**: a class which is not iteratable can not be (de)serialised if one of the `TREAT_AS` macros has been used for it. -/
theorem C62_marked_but_not_iteratable (P : Program) (c : Nat) (hi : P.iteratable c = false)
    (hm : P.treatAsMap (.cls c) = true ∨ P.treatAsMultiMap (.cls c) = true ∨ P.treatAsSet (.cls c) = true ∨
      P.treatAsMultiSet (.cls c) = true) :
    ¬Compiles P (.pushValue (.cls c)) ∧ ¬Compiles P (.pullValue (.cls c)) := by
  have hb : jsonBuiltIn P (.cls c) = false := by rw [jsonBuiltIn_cls]; exact hi
  have h1 : .pushCustom ∈ pushValueFns P (.cls c) := by simp [pushValueFns, mem_enabled, hb]
  have h2 : .pullCustom ∈ pullValueFns P (.cls c) := by simp [pullValueFns, mem_enabled, hb]
  have hset : (P.treatAsSet (.cls c) = true ∨ P.treatAsMultiSet (.cls c) = true) → isArrayOrSet P (.cls c) = true := by
    intro e; rcases e with e | e <;> simp [isArrayOrSet, e]
  rcases hm with e | e | e
  · exact ⟨not_compiles_of_two (c := .pushValue _) (g := .pushMap) h1 (by simp [candidates, pushValueFns, mem_enabled, isMapOrHash, e])
      (by decide), not_compiles_of_two (c := .pullValue _) (g := .pullMap) h2
        (by simp [candidates, pullValueFns, mem_enabled, isMapOrHash, e]) (by decide)⟩
  · exact ⟨not_compiles_of_two (c := .pushValue _) (g := .pushMultiMap) h1
      (by simp [candidates, pushValueFns, mem_enabled, isMultiMapOrHash, e]) (by decide),
      not_compiles_of_two (c := .pullValue _) (g := .pullMultiMap) h2
        (by simp [candidates, pullValueFns, mem_enabled, isMultiMapOrHash, e]) (by decide)⟩
  · have hs := hset e
    constructor
    · cases hz : hasSize P (.cls c)
      · exact not_compiles_of_two (c := .pushValue _) (g := .pushUnsized) h1
          (by simp [candidates, pushValueFns, mem_enabled, hs, hz]) (by decide)
      · exact not_compiles_of_two (c := .pushValue _) (g := .pushSized) h1
          (by simp [candidates, pushValueFns, mem_enabled, hs, hz]) (by decide)
    · cases hz : isReservable P (.cls c)
      · exact not_compiles_of_two (c := .pullValue _) (g := .pullUnreservable) h2
          (by simp [candidates, pullValueFns, mem_enabled, hs, hz]) (by decide)
      · exact not_compiles_of_two (c := .pullValue _) (g := .pullReservable) h2
          (by simp [candidates, pullValueFns, mem_enabled, hs, hz]) (by decide)

/-! ## The documented JSON types -/

/-- **C62**: for every type which can be deserialised the overload chosen accepts values of exactly the JSON type documented in
README.md. -/
theorem C62_json_types (h : Sane P) (t : CppTy) (ht : CanFromJson P t) :
    ∃ f, candidates P (.pullValue t) = [f] ∧ acceptsType P t f = readmeType P t := by
  cases ht with
  | @number a ha =>
    refine ⟨if a = .bool then .pullBool else .pullNumber, (pullValueFns_arith h a).trans ?_, ?_⟩ <;>
      cases a <;> first | rfl | (simp [jsonNumbers] at ha)
  | int8 ha =>
    refine ⟨.pullInt8, ?_, ?_⟩ <;> rcases ha with rfl | rfl <;> first | exact pullValueFns_arith h _ | rfl
  | enum u => exact ⟨_, pullValueFns_enum h u, rfl⟩
  | text e =>
    rcases e with rfl | rfl | rfl
    · exact ⟨_, pullValueFns_std h _ _, rfl⟩
    · exact ⟨_, pullValueFns_std h _ _, rfl⟩
    · exact ⟨_, pullValueFns_ptr h _ _, rfl⟩
  | list hT =>
    simp only [lists, List.mem_cons, List.mem_nil_iff, or_false] at hT
    rcases hT with rfl | rfl | rfl <;> exact ⟨_, pullValueFns_std h _ _, rfl⟩
  | set hT =>
    simp only [sets, List.mem_cons, List.mem_nil_iff, or_false] at hT
    rcases hT with rfl | rfl | rfl | rfl <;> exact ⟨_, pullValueFns_std h _ _, rfl⟩
  | map hT =>
    simp only [maps, List.mem_cons, List.mem_nil_iff, or_false] at hT
    rcases hT with rfl | rfl | rfl | rfl <;> exact ⟨_, pullValueFns_std h _ _, rfl⟩
  | pair => exact ⟨_, pullValueFns_std h _ _, rfl⟩
  | tuple => exact ⟨_, pullValueFns_std h _ _, rfl⟩
  | nullable hT =>
    simp only [nullables, List.mem_cons, List.mem_nil_iff, or_false] at hT
    rcases hT with rfl | rfl | rfl <;> exact ⟨_, pullValueFns_std h _ _, rfl⟩
  | variant => exact ⟨_, pullValueFns_std h _ _, rfl⟩
  | @cls c hi hs =>
    refine ⟨_, pullValueFns_cls (h.plain hi), ?_⟩
    obtain ⟨h2, h3, h4, h5⟩ := h.cls c hi
    simp [acceptsType, readmeType, h2, h3, hi]
  | @clsList c hi hm hmm hs hms =>
    cases hr : P.reservable c
    all_goals
      refine ⟨_, (pullValueFns_cls (k := .list) ⟨hi, hm, hmm, hs, hms⟩).trans (by simp only [pullCls, hr]; rfl), ?_⟩
      simp [acceptsType, readmeType, hm, hmm, hi]
  | @clsSet c hc =>
    obtain ⟨k, hk⟩ := h.kind c
    cases k <;> have hk' := hk <;> obtain ⟨h1, h2, h3, h4, h5⟩ := hk' <;> simp [h4, h5] at hc
    all_goals
      cases hr : P.reservable c
      all_goals
        refine ⟨_, (pullValueFns_cls hk).trans (by simp only [pullCls, hr]; rfl), ?_⟩
        simp [acceptsType, readmeType, h1, h2, h3]
  | @clsMap c hc =>
    obtain ⟨k, hk⟩ := h.kind c
    cases k <;> have hk' := hk <;> obtain ⟨h1, h2, h3, h4, h5⟩ := hk' <;> simp [h2, h3] at hc
    all_goals
      refine ⟨_, (pullValueFns_cls hk).trans rfl, ?_⟩
      simp [acceptsType, readmeType, h2, h3]

/-! ## The types of the models of the reflectors -/

theorem intTy_json {it : IntTy} (h : it = .i8 ∨ it = .u8 ∨ it = .i32 ∨ it = .u32 ∨ it = .i64 ∨ it = .u64) :
    CanFromJson P (.arith (intTy it)) := by
  rcases h with rfl | rfl | rfl | rfl | rfl | rfl
  · exact .int8 (Or.inl rfl)
  · exact .int8 (Or.inr rfl)
  all_goals exact .number (by decide)

theorem intTy_bin {it : IntTy} (h : it ≠ .i8) : intTy it ∈ binNumbers := by
  cases it <;> first | exact absurd rfl h | decide

theorem setTmpl_mem (a b) : setTmpl a b ∈ sets := by cases a <;> cases b <;> decide
theorem mapTmpl_mem (a b) : mapTmpl a b ∈ maps := by cases a <;> cases b <;> decide

theorem toCppL_mem {V t} : ∀ {ts : List Ty}, t ∈ toCppL V ts → ∃ t' ∈ ts, t = toCpp V t'
  | [], h => by simp [toCppL] at h
  | a :: ts, h => by
    simp only [toCppL, List.mem_cons] at h
    rcases h with rfl | h
    · exact ⟨a, by simp, rfl⟩
    · obtain ⟨t', h1, h2⟩ := toCppL_mem h
      exact ⟨t', by simp [h1], h2⟩

theorem toCppL_ne {V} {ts : List Ty} (h : ts ≠ []) : toCppL V ts ≠ [] := by
  cases ts with
  | nil => exact absurd rfl h
  | cons => simp [toCppL]

theorem toCpp_mono {V t} (h : toCpp V t ≠ .monostate) : t ≠ .mono := by
  rintro rfl; exact h rfl

/-- no `std::vector<bool>`, no `std::tuple<>` -/
def Usual (E : Env) (V : Tmpl) (t : Ty) : Prop :=
  (∀ t', JsonNeeds E t (.vec t') → ¬(V = .vector ∧ t' = .bool)) ∧ ¬JsonNeeds E t (.tuple [])

theorem toCpp_bool {V t} (h : toCpp V t = .arith .bool) : t = .bool := by
  cases t with
  | bool => rfl
  | int it => cases it <;> cases h
  | _ => cases h

theorem json_readable (E : Env) (D : Describes P E) {V} (hV : V ∈ lists) : ∀ (t : Ty), JsonReadable E t → Usual E V t →
    CanFromJson P (toCpp V t)
  | .bool, _, _ => .number (by decide)
  | .int it, hr, _ => intTy_json (hr _ (.refl _))
  | .f32, _, _ => .number (by decide)
  | .f64, _, _ => .number (by decide)
  | .enum u, _, _ => .enum _
  | .str, _, _ => .text (by simp [toCpp])
  | .cstr, _, _ => .text (by simp [toCpp])
  | .sview, _, _ => .text (by simp [toCpp])
  | .opt t, hr, hu => .nullable (by decide) (json_readable E D hV t (fun _ h => hr _ (.opt h))
      ⟨fun _ h => hu.1 _ (.opt h), fun h => hu.2 (.opt h)⟩)
  | .uptr t, hr, hu => .nullable (by decide) (json_readable E D hV t (fun _ h => hr _ (.uptr h))
      ⟨fun _ h => hu.1 _ (.uptr h), fun h => hu.2 (.uptr h)⟩)
  | .sptr t, hr, hu => .nullable (by decide) (json_readable E D hV t (fun _ h => hr _ (.sptr h))
      ⟨fun _ h => hu.1 _ (.sptr h), fun h => hu.2 (.sptr h)⟩)
  | .vec t, hr, hu => .list hV (fun ⟨h1, h2⟩ => hu.1 t (.refl _) ⟨h1, toCpp_bool h2⟩) (json_readable E D hV t (fun _ h => hr _ (.vec h))
      ⟨fun _ h => hu.1 _ (.vec h), fun h => hu.2 (.vec h)⟩)
  | .set a b t, hr, hu => .set (setTmpl_mem a b) (json_readable E D hV t (fun _ h => hr _ (.set h))
      ⟨fun _ h => hu.1 _ (.set h), fun h => hu.2 (.set h)⟩)
  | .map a b k t, hr, hu => by
    have hk : k = .str := hr _ (.refl _)
    subst hk
    exact .map (mapTmpl_mem a b) (by simp [toCpp, cStringKeys]) (json_readable E D hV t (fun _ h => hr _ (.mapVal h))
      ⟨fun _ h => hu.1 _ (.mapVal h), fun h => hu.2 (.mapVal h)⟩)
  | .pair a b, hr, hu => .pair
      (json_readable E D hV a (fun _ h => hr _ (.fst h)) ⟨fun _ h => hu.1 _ (.fst h), fun h => hu.2 (.fst h)⟩)
      (json_readable E D hV b (fun _ h => hr _ (.snd h)) ⟨fun _ h => hu.1 _ (.snd h), fun h => hu.2 (.snd h)⟩)
  | .tuple ts, hr, hu => by
    refine .tuple (toCppL_ne ?_) fun a ha => ?_
    · rintro rfl; exact hu.2 (.refl _)
    · obtain ⟨t', ht', rfl⟩ := toCppL_mem ha
      exact json_readable E D hV t' (fun _ h => hr _ (.elem ht' h)) ⟨fun _ h => hu.1 _ (.elem ht' h), fun h => hu.2 (.elem ht' h)⟩
  | .variant ts, hr, hu => by
    refine .variant (toCppL_ne (hr _ (.refl _))) fun a ha hm => ?_
    obtain ⟨t', ht', rfl⟩ := toCppL_mem ha
    have hm := toCpp_mono hm
    exact json_readable E D hV t' (fun _ h => hr _ (.alt ht' hm h)) ⟨fun _ h => hu.1 _ (.alt ht' hm h), fun h => hu.2 (.alt ht' hm h)⟩
  | .mono, hr, _ => (hr _ (.refl _)).elim
  | .cls c, hr, _ => by
    obtain ⟨ci, h1, h2, -⟩ := hr _ (.refl _)
    exact .cls (D.plain _) (Or.inr ((D.pull c).2 ⟨ci, h1, h2⟩))
  | .dateTime, _, _ => .cls (D.plain _) (Or.inl ((D.special 0).2 (by simp)))
  | .timeSpan, _, _ => .cls (D.plain _) (Or.inl ((D.special 1).2 (by simp)))
termination_by t => sizeOf t
decreasing_by all_goals decreasing_tactic

/-- **C62**: the types the properties of JSON deserialisation are about (`JsonReadable`) are types for which `pull` compiles -
unless they involve `std::vector<bool>` or `std::tuple<>`. -/
theorem C62_json_readable_types_compile (E : Env) (D : Describes P E) (V : Tmpl) (hV : V ∈ lists) (t : Ty) (ht : JsonReadable E t)
    (hu : Usual E V t) : Compiles P (.pullValue (toCpp V t)) :=
  pull_complete D.sane (json_readable E D hV t ht hu)

theorem bin_readable (E : Env) (D : Describes P E) {V} (hV : V ∈ lists) : ∀ (t : Ty), Readable E t →
    (∀ t', Needs E t (.vec t') → ¬(V = .vector ∧ t' = .bool)) → CanFromBinary P (toCpp V t)
  | .bool, _, _ => .number (by decide)
  | .int it, hr, _ => .number (intTy_bin (hr _ (.refl _)))
  | .f32, _, _ => .number (by decide)
  | .f64, _, _ => .number (by decide)
  | .enum u, hr, _ => .enum (intTy_bin (hr _ (.refl _)))
  | .str, _, _ => .string
  | .cstr, hr, _ => (hr _ (.refl _)).elim
  | .sview, hr, _ => (hr _ (.refl _)).elim
  | .opt t, hr, hu => .nullable (by decide) (bin_readable E D hV t (fun _ h => hr _ (.opt h)) (fun _ h => hu _ (.opt h)))
  | .uptr t, hr, hu => .nullable (by decide) (bin_readable E D hV t (fun _ h => hr _ (.uptr h)) (fun _ h => hu _ (.uptr h)))
  | .sptr t, hr, hu => .nullable (by decide) (bin_readable E D hV t (fun _ h => hr _ (.sptr h)) (fun _ h => hu _ (.sptr h)))
  | .vec t, hr, hu => .list (List.mem_append_left _ hV) (fun ⟨h1, h2⟩ => hu t (.refl _) ⟨h1, toCpp_bool h2⟩)
      (bin_readable E D hV t (fun _ h => hr _ (.vec h)) (fun _ h => hu _ (.vec h)))
  | .set a b t, hr, hu => .set (setTmpl_mem a b) (bin_readable E D hV t (fun _ h => hr _ (.set h)) (fun _ h => hu _ (.set h)))
  | .map a b k t, hr, hu => .map (mapTmpl_mem a b)
      (bin_readable E D hV k (fun _ h => hr _ (.mapKey h)) (fun _ h => hu _ (.mapKey h)))
      (bin_readable E D hV t (fun _ h => hr _ (.mapVal h)) (fun _ h => hu _ (.mapVal h)))
  | .pair a b, hr, hu => .pair
      (bin_readable E D hV a (fun _ h => hr _ (.fst h)) (fun _ h => hu _ (.fst h)))
      (bin_readable E D hV b (fun _ h => hr _ (.snd h)) (fun _ h => hu _ (.snd h)))
  | .tuple ts, hr, _ => (hr _ (.refl _)).elim
  | .variant ts, hr, hu => by
    refine .variant (toCppL_ne (hr _ (.refl _))) fun a ha hm => ?_
    obtain ⟨t', ht', rfl⟩ := toCppL_mem ha
    have hm := toCpp_mono hm
    exact bin_readable E D hV t' (fun _ h => hr _ (.alt ht' hm h)) (fun _ h => hu _ (.alt ht' hm h))
  | .mono, hr, _ => (hr _ (.refl _)).elim
  | .cls c, hr, _ => by
    obtain ⟨ci, h1, h2, -⟩ := hr _ (.refl _)
    exact .cls (D.plain _) ((D.read c).2 ⟨ci, h1, h2⟩)
  | .dateTime, _, _ => .cls (D.plain _) D.time.1
  | .timeSpan, _, _ => .cls (D.plain _) D.time.2
termination_by t => sizeOf t
decreasing_by all_goals decreasing_tactic

/-- **C62**: the types the properties of binary deserialisation are about (`Readable`) are types for which `read` compiles -
unless they involve `std::vector<bool>`. -/
theorem C62_readable_types_compile (E : Env) (D : Describes P E) (V : Tmpl) (hV : V ∈ lists) (t : Ty) (ht : Readable E t)
    (hu : ∀ t', Needs E t (.vec t') → ¬(V = .vector ∧ t' = .bool)) : Compiles P (.read (toCpp V t)) :=
  read_complete D.sane (bin_readable E D hV t ht hu)

/-- **C62**: the type reported as expected in case of a type mismatch (`jtypeOf`) is the one determined by the overloads of
`jsonType`. -/
theorem C62_expected_type (E : Env) (D : Describes P E) (V : Tmpl) (hV : V ∈ lists) (t : Ty) :
    ∃ f, candidates P (.jsonType (toCpp V t)) = [f] ∧ typeOf f = some (jtypeOf t) := by
  rcases jsonType_compiles (P := P) (toCpp V t) with ⟨hf, -, -⟩
  refine ⟨_, hf, ?_⟩
  simp only [candidates] at hf
  have hl : ∀ f g : Fn, jsonTypeFns P (toCpp V t) = [f] → g ∈ jsonTypeFns P (toCpp V t) → f = g := by
    intro f g h1 h2; rw [h1] at h2; simpa [eq_comm] using h2
  cases t with
  | int it => rw [hl _ .typeNumber hf (by cases it <;> simp [toCpp, intTy, jsonTypeFns, mem_enabled, isArith, isIntegral])]; rfl
  | bool => rw [hl _ .typeBool hf (by simp [toCpp, jsonTypeFns, mem_enabled, isArith])]; rfl
  | f32 => rw [hl _ .typeNumber hf (by simp [toCpp, jsonTypeFns, mem_enabled, isArith, isFloatingPoint])]; rfl
  | f64 => rw [hl _ .typeNumber hf (by simp [toCpp, jsonTypeFns, mem_enabled, isArith, isFloatingPoint])]; rfl
  | str => rw [hl _ .typeString hf (by simp [toCpp, jsonTypeFns, mem_enabled, isString, spec])]; rfl
  | cstr => rw [hl _ .typeString hf (by simp [toCpp, jsonTypeFns, mem_enabled, isString, isCString])]; rfl
  | sview => rw [hl _ .typeString hf (by simp [toCpp, jsonTypeFns, mem_enabled, isString, spec])]; rfl
  | vec t =>
    have : isIteratable P (toCpp V (.vec t)) = true ∧ isString (toCpp V (.vec t)) = false ∧ spec .map (toCpp V (.vec t)) = false ∧
        spec .unorderedMap (toCpp V (.vec t)) = false := by
      simp only [lists, List.mem_cons, List.mem_nil_iff, or_false] at hV
      rcases hV with rfl | rfl | rfl <;> simp [toCpp, isIteratable, Tmpl.iteratable, isString, isCString, spec]
    rw [hl _ .typeArray hf (by simp [jsonTypeFns, mem_enabled, this])]; rfl
  | set a b t =>
    rw [hl _ .typeArray hf (by cases a <;> cases b <;> simp [toCpp, setTmpl, jsonTypeFns, mem_enabled, isString, isCString, spec,
      isIteratable, Tmpl.iteratable])]
    rfl
  | map a b k t =>
    cases b
    · rw [hl _ .typeObject hf (by cases a <;> simp [toCpp, mapTmpl, jsonTypeFns, mem_enabled, isString, isCString, spec,
        isIteratable, Tmpl.iteratable, isIntegral, isFloatingPoint])]
      rfl
    · rw [hl _ .typeArray hf (by cases a <;> simp [toCpp, mapTmpl, jsonTypeFns, mem_enabled, isString, isCString, spec,
        isIteratable, Tmpl.iteratable])]
      rfl
  | _ => rw [hl _ .typeObject hf (by simp [toCpp, jsonTypeFns, mem_enabled, isString, isCString, spec, isIteratable, D.plain,
      Tmpl.iteratable, isIntegral, isFloatingPoint])]; rfl

/-- **C62**: the overloads of `pull` for containers which pass the array on never end up calling themselves (which might be
possible because RapidJSON's arrays can be converted to values). -/
theorem C62_array_overload_exists (P : Program) (t : CppTy)
    (h : .pullUnreservable ∈ candidates P (.pullValue t) ∨ .pullReservable ∈ candidates P (.pullValue t)) :
    ∀ f ∈ candidates P (.pullArray t), f = .pullIntoArray ∨ f = .pullIntoSet ∨ f = .pullIntoMultiSet := by
  have ha : isArrayOrSet P t = true := by
    rcases h with h | h <;> simp [candidates, pullValueFns, mem_enabled] at h <;> exact h.1
  have hne : pullArrayFns P t ≠ [] := by
    intro he
    have h0 : ∀ f, f ∉ pullArrayFns P t := by simp [he]
    have h1 := h0 .pullIntoArray
    have h2 := h0 .pullIntoSet
    have h3 := h0 .pullIntoMultiSet
    simp only [pullArrayFns, mem_enabled, List.mem_cons, Prod.mk.injEq, reduceCtorEq, false_and, true_and, or_false, false_or,
      List.not_mem_nil] at h1 h2 h3
    cases hs : isSet P t <;> cases hm : isMultiSet P t <;> simp [hs, hm] at h2 h3
    cases hi : isIteratable P t <;> cases hb : spec .basicString t <;> cases hmap : isMapOrHash P t <;>
      cases hmm : isMultiMapOrHash P t <;> simp [isArray, hs, hm, hi, hb, hmap, hmm] at h1 <;>
      simp [isArrayOrSet, hi, hb, hmap, hmm] at ha <;> simp_all [isSet, isMultiSet]
  intro f hf
  have hc : candidates P (.pullArray t) = pullArrayFns P t := by
    cases e : pullArrayFns P t with
    | nil => exact absurd e hne
    | cons f fs => simp [candidates, e]
  rw [hc, pullArrayFns, mem_enabled] at hf
  simp only [List.mem_cons, Prod.mk.injEq, List.not_mem_nil, or_false] at hf
  rcases hf with hf | hf | hf
  · exact Or.inl hf.1
  · exact Or.inr (Or.inl hf.1)
  · exact Or.inr (Or.inr hf.1)

/-! ## Examples -/

/-- A program with the time classes (0 and 1), a serialisable class 2, a sequence 3 of numbers, a class 4 treated as map from
strings to objects of class 2 and a class 5 treated as set. -/
def demo : Program where
  iteratable c := c == 3 || c == 4 || c == 5
  hasSize c := c == 3 || c == 4
  reservable c := c == 3
  resizable c := c == 3
  backInsertable c := c == 3
  insertable c := c == 5
  elem _ := .arith .int
  key _ := .string
  mapped _ := .cls 2
  complete _ := true
  derivesJson c := c == 2
  jsonPush c := c == 2
  jsonPull c := c == 2
  binWrite c := c == 0 || c == 1 || c == 2
  binRead c := c == 0 || c == 1 || c == 2
  jsonSpecial c := c == 0 || c == 1
  adaptedJson _ := false
  treatAsMap t := match t with | .cls 4 => true | _ => false
  treatAsMultiMap _ := false
  treatAsSet t := match t with | .cls 5 => true | _ => false
  treatAsMultiSet _ := false
  valueRef := true

theorem demo_sane : Sane demo where
  map t h := by
    simp only [demo] at h
    split at h
    · exact ⟨4, rfl, rfl⟩
    · cases h
  multiMap t h := by cases h
  set t h := by
    simp only [demo] at h
    split at h
    · exact ⟨5, rfl, rfl⟩
    · cases h
  multiSet t h := by cases h
  once t := by
    simp only [demo]
    split
    · split
      · next e => cases e
      · decide
    · split <;> decide
  adapted t h := by cases h
  json c h := by
    have : c = 2 := by simpa [demo] using h
    subst this
    exact ⟨rfl, rfl⟩

-- std::map<std::string, std::vector<std::optional<Class>>>
example : Compiles demo (.toJson (.std .map [.string, .std .vector [.std .optional [.cls 2]]])) ∧
    Compiles demo (.fromJson (.std .map [.string, .std .vector [.std .optional [.cls 2]]])) :=
  ⟨(C62_toJson_iff demo_sane _).1.2 ⟨.map (by decide) (by simp [textKeys]) (.list (by decide) (.nullable (by decide)
      (by intro as e; cases e) (.cls rfl (Or.inr rfl)))), .map _ _ (by decide)⟩,
    (C62_fromJson_iff demo_sane _).2 (Or.inr ⟨.map (by decide) (by simp [cStringKeys]) (.list (by decide) (by rintro ⟨-, e⟩; cases e)
      (.nullable (by decide) (.cls rfl (Or.inr rfl)))), .map _ _ (by decide)⟩)⟩

-- std::optional<std::variant<int, std::string>>: only the other way around
example : ¬Compiles demo (.pushValue (.std .optional [.std .variant [.arith .int, .string]])) ∧
    Compiles demo (.pullValue (.std .optional [.std .variant [.arith .int, .string]])) ∧
    Compiles demo (.pushValue (.std .variant [.std .optional [.arith .int], .string])) := by
  refine ⟨fun hc => ?_, (C62_json_read_iff demo_sane _).2 (.nullable (by decide) (.variant (by simp) ?_)),
    (C62_json_write_iff demo_sane _).1.2 (.variant (by simp) ?_)⟩
  · cases (C62_json_write_iff demo_sane _).1.1 hc with
    | nullable _ hv => exact hv _ rfl
    | list e => simp [lists, sets] at e
    | text e => rcases e with e | e | e <;> cases e
  · intro a ha _
    simp only [List.mem_cons, List.mem_nil_iff, or_false] at ha
    rcases ha with rfl | rfl
    · exact .number (by decide)
    · exact .text (Or.inl rfl)
  · intro a ha _
    simp only [List.mem_cons, List.mem_nil_iff, or_false] at ha
    rcases ha with rfl | rfl
    · exact .nullable (by decide) (by intro as e; cases e) (.number (by decide))
    · exact .text (Or.inl rfl)

-- short is supported by the binary (de)serialiser only
example : ¬Compiles demo (.pullValue (.arith .short)) ∧ Compiles demo (.read (.arith .short)) := by
  refine ⟨fun hc => ?_, (C62_binary_read_iff demo_sane _).1.2 (.number (by decide))⟩
  cases (C62_json_read_iff demo_sane _).1 hc with
  | number h => simp [jsonNumbers] at h
  | int8 h => simp at h
  | text e => rcases e with e | e | e <;> cases e

-- std::string_view can be written but not read
example : Compiles demo (.write .stringView) ∧ ¬Compiles demo (.read .stringView) := by
  refine ⟨(C62_binary_write_iff demo_sane _).1.2 (.list (by decide) (.number (by decide))), fun hc => ?_⟩
  cases (C62_binary_read_iff demo_sane _).1.1 hc with
  | list e => simp [lists] at e
  | set e => simp [sets] at e
  | nullable e => simp [nullables] at e

-- the containers of the program
example : candidates demo (.pullValue (.cls 4)) = [.pullMap] ∧ candidates demo (.pullArray (.cls 5)) = [.pullIntoSet] ∧
    candidates demo (.read (.cls 3)) = [.readResizable] ∧ candidates demo (.write (.cls 5)) = [] := by decide

example : ¬Compiles { demo with treatAsSet := fun _ => true } (.pullValue (.cls 4)) := C62_conflicting_marks _ _ (by decide)
example : ¬Compiles { demo with treatAsMap := fun _ => true } (.pushValue (.cls 2)) :=
  (C62_marked_but_not_iteratable _ 2 rfl (Or.inl rfl)).1

/-- A program having the code for the classes of the demo environment. -/
def demoEnvProgram : Program := { demo with
  iteratable := fun _ => false, treatAsMap := fun _ => false, treatAsSet := fun _ => false, derivesJson := fun _ => false,
  jsonPull := fun c => c == 2 || c == 3 || c == 4, binRead := fun c => c ≤ 4 }

theorem demo_describes : Describes demoEnvProgram Demo.env where
  sane := ⟨nofun, nofun, nofun, nofun, fun _ => by simp [demoEnvProgram, demo], nofun, fun c h => by simp [demoEnvProgram, demo] at h⟩
  plain _ := rfl
  special c := by simp [demoEnvProgram, demo]
  pull c := by
    match c with
    | 0 => exact ⟨fun _ => ⟨_, rfl, rfl⟩, fun _ => rfl⟩
    | 1 => exact ⟨fun _ => ⟨_, rfl, rfl⟩, fun _ => rfl⟩
    | 2 => exact ⟨fun _ => ⟨_, rfl, rfl⟩, fun _ => rfl⟩
    | c + 3 => simp [demoEnvProgram, Demo.env]
  read c := by
    match c with
    | 0 => exact ⟨fun _ => ⟨_, rfl, rfl⟩, fun _ => rfl⟩
    | 1 => exact ⟨fun _ => ⟨_, rfl, rfl⟩, fun _ => rfl⟩
    | 2 => exact ⟨fun _ => ⟨_, rfl, rfl⟩, fun _ => rfl⟩
    | c + 3 => simp [demoEnvProgram, Demo.env]
  time := ⟨rfl, rfl⟩

example : Compiles demoEnvProgram (.pullValue (toCpp .vector (.map false false .str (.vec (.int .i32))))) := by
  refine C62_json_readable_types_compile Demo.env demo_describes .vector (by decide) _ ?_ ⟨?_, ?_⟩
  · intro t' h
    cases h with
    | refl => rfl
    | mapVal h =>
      cases h with
      | refl => trivial
      | vec h => cases h; simp [JsonLocallyOk]
  · intro t' h
    cases h with
    | mapVal h =>
      cases h with
      | refl => rintro ⟨-, e⟩; cases e
      | vec h => cases h
  · intro h
    cases h with
    | mapVal h =>
      cases h with
      | vec h => cases h

end Verif.Dispatch
