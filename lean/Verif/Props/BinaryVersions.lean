import Verif.Lemmas.BinWClosed
import Verif.Props.BinaryContainers
import Verif.Props.BinaryMisc

/-!
# C38-C41: versions in the binary format
-/

namespace Verif

/-! ## C38: unsupported versions -/

/-- **C38**: if the version stored in front of the members of a versioned class exceeds the supported version then reading throws
`VersionNotSupported` with the version present, the maximum version and the name of the class. At this point exactly the base
classes and the version have been consumed; what the members are makes no difference. -/
theorem C38_unsupported_version_rejected (E : Env) (n w : Nat) (c : ClassId) (ci : ClassInfo) (m v : Nat) (p b : Val) (rs s1 s2 : RSt)
    (hc : E.cls c = some ci) (hr : ci.bin.readable = true) (hv : ci.bin.version = some m)
    (hb : readBases (read E n) w ci.bin.bases p rs = .ok b s1) (hst : ∃ st, b = .obj st) (hx : readVarint s1 = .ok v s2) (hm : m < v) :
    read E (n + 1) w (.cls c) p rs = .exc (.version v m ci.qname) s2 := by
  obtain ⟨st, rfl⟩ := hst
  simp only [read, readStep, hc, readClass, hr]
  rw [if_neg (by simp)]
  refine M.bind_exc ?_
  rw [M.bind_ok hb]
  refine M.bind_exc ?_
  simp only [readVersion, hv]
  rw [M.bind_ok hx, if_neg (by omega)]
  rfl

/-- **C38** at the level of bytes, for a class without base classes (for `read` and for `restoreFromBinary`): a variable-length
integer `v > m` is rejected, whatever follows. -/
theorem C38_rejected_bytes (E : Env) (n w : Nat) (c : ClassId) (ci : ClassInfo) (m v L : Nat) (st : Store) (rest : Str)
    (table : List (Nat × Ty × Nat)) (heap : List Val)
    (hc : E.cls c = some ci) (hr : ci.bin.readable = true) (hv : ci.bin.version = some m) (hb : ci.bin.bases = [])
    (hL : varintLen v = some L) (hm : m < v) :
    read E (n + 1) w (.cls c) (.obj st) ⟨beBytes L (v + 2 ^ (7 * L)) ++ rest, table, heap⟩ =
      .exc (.version v m ci.qname) ⟨rest, table, heap⟩ ∧
    restoreFromBinary E n c (.obj st) (beBytes L (v + 2 ^ (7 * L)) ++ rest) = .exc (.version v m ci.qname) (RSt.init rest) := by
  obtain ⟨h1, h2, h3, -⟩ := varintLen_some hL
  have hx := fun s => readVarint_append h1 h2 h3 rest s
  constructor
  · exact C38_unsupported_version_rejected E n w c ci m v _ (.obj st) _ _ _ hc hr hv (by rw [hb]; rfl) ⟨_, rfl⟩ (hx ⟨[], table, heap⟩) hm
  · simp only [restoreFromBinary, hc, readClass, hr, hb, readBases]
    rw [if_neg (by simp)]
    refine M.bind_exc (m := readVersion ci 0) ?_
    simp only [readVersion, hv]
    have := hx ⟨[], [], []⟩
    rw [M.bind_ok (show readVarint (RSt.init _) = _ from this), if_neg (by omega)]
    rfl

/-- **C38**, converse: an object of a versioned class is only read successfully if the version stored is supported, and then the
members are read according to this version (which `readCustomType` returns). -/
theorem C38_only_supported_versions_accepted (E : Env) (n w : Nat) (c : ClassId) (ci : ClassInfo) (m : Nat) (p v : Val) (rs rs' : RSt)
    (hc : E.cls c = some ci) (hv : ci.bin.version = some m) (h : read E (n + 1) w (.cls c) p rs = .ok v rs') :
    ∃ st s1 x s2 st', readBases (read E n) w ci.bin.bases p rs = .ok (.obj st) s1 ∧ readVarint s1 = .ok x s2 ∧ x ≤ m ∧
      readFields (read E n) x ci.bin.readFields st s2 = .ok st' rs' ∧ v = .obj st' := by
  simp only [read, readStep, hc, readClass] at h
  split at h
  · rw [M.bind_stuck rfl] at h
    cases h
  · rw [M.bind_eq_ok] at h
    obtain ⟨r, s0, h, h0⟩ := h
    cases h0
    rw [M.bind_eq_ok] at h
    obtain ⟨b, s1, h1, h⟩ := h
    cases b with
    | obj st =>
      simp only at h
      rw [M.bind_eq_ok] at h
      obtain ⟨x, s2, h2, h⟩ := h
      rw [M.bind_eq_ok] at h
      obtain ⟨st', s3, h3, h4⟩ := h
      cases h4
      simp only [readVersion, hv] at h2
      rw [M.bind_eq_ok] at h2
      obtain ⟨y, s4, h4, h5⟩ := h2
      split at h5
      · rename_i hle
        cases h5
        exact ⟨st, s1, x, s2, st', h1, h4, hle, h3, rfl⟩
      · cases h5
    | _ => cases h

-- the class Derived of the demo (version 3) with an empty Base part; version 4 is rejected
example : read Demo.env 4 0 (.cls 1) (.obj Demo.derivedInit) (RSt.init ([0, 0, 0, 0, 0x80] ++ [0x84, 1, 2, 3])) =
    .exc (.version 4 3 (lit "Derived")) (RSt.init [1, 2, 3]) := by
  have hb : ∃ st, readBases (read Demo.env 3) 0 [0] (.obj Demo.derivedInit) (RSt.init ([0, 0, 0, 0, 0x80] ++ [0x84, 1, 2, 3])) =
      .ok (.obj st) (RSt.init [0x84, 1, 2, 3]) := ⟨_, rfl⟩
  obtain ⟨st, hb⟩ := hb
  exact C38_unsupported_version_rejected Demo.env 3 0 1 Demo.derived 3 4 _ _ _ (RSt.init [0x84, 1, 2, 3]) _ rfl rfl rfl
    hb ⟨_, rfl⟩ rfl (by decide)

/-! ## C39: defaulting and propagation -/

/-- the members `fs` of the object `st` are written one after another with the given version -/
inductive WritesMembers (E : Env) (H : Heap) (n version : Nat) (st : Store) : List Field → WSt → WSt → Prop
  | nil (s) : WritesMembers E H n version st [] s s
  | cons {f fs v s s1 s2} : st.get? f.key = some v → write E H n version f.ty v s = .ok () s1 →
      WritesMembers E H n version st fs s1 s2 → WritesMembers E H n version st (f :: fs) s s2

/-- the base classes `bs` of the object `v` are written one after another with the given version -/
inductive WritesBases (E : Env) (H : Heap) (n version : Nat) (v : Val) : List ClassId → WSt → WSt → Prop
  | nil (s) : WritesBases E H n version v [] s s
  | cons {b bs s s1 s2} : write E H n version (.cls b) v s = .ok () s1 → WritesBases E H n version v bs s1 s2 →
      WritesBases E H n version v (b :: bs) s s2

theorem writesMembers_iff (E : Env) (H : Heap) (n version : Nat) (st : Store) (fs : List (Guard × Field)) (s s' : WSt) :
    writeFields (write E H n) version fs st s = .ok () s' ↔ WritesMembers E H n version st (activeFields version fs) s s' := by
  induction fs generalizing s with
  | nil =>
    constructor
    · intro h; cases h; exact .nil _
    · intro h; cases h; rfl
  | cons gf fs ih =>
    obtain ⟨g, f⟩ := gf
    unfold activeFields at ih ⊢
    rw [List.filter_cons]
    by_cases hg : g.holds version = true
    · rw [if_pos hg, List.map_cons, writeFields, if_pos hg]
      cases hv : st.get? f.key with
      | none =>
        constructor
        · intro h; cases h
        · intro h; cases h with | cons h1 _ _ => rw [hv] at h1; cases h1
      | some v =>
        dsimp only
        rw [M.bind_eq_ok]
        constructor
        · rintro ⟨⟨⟩, s1, h1, h2⟩
          exact .cons hv h1 ((ih s1).1 h2)
        · intro h
          cases h with
          | cons h1 h2 h3 =>
            rw [hv] at h1
            cases h1
            exact ⟨(), _, h2, (ih _).2 h3⟩
    · rw [if_neg hg, writeFields, if_neg hg, ih]

theorem writesBases_iff (E : Env) (H : Heap) (n version : Nat) (v : Val) (bs : List ClassId) (s s' : WSt) :
    writeBases (write E H n) version bs v s = .ok () s' ↔ WritesBases E H n version v bs s s' := by
  induction bs generalizing s with
  | nil =>
    constructor
    · intro h; cases h; exact .nil _
    · intro h; cases h; rfl
  | cons b bs ih =>
    rw [writeBases, M.bind_eq_ok]
    constructor
    · rintro ⟨⟨⟩, s1, h1, h2⟩
      exact .cons h1 ((ih s1).1 h2)
    · intro h
      cases h with
      | cons h1 h2 => exact ⟨(), _, h1, (ih _).2 h2⟩

/-- **C39**: layout of a versioned class with current version `m` written with version `w`: first the base classes, given the
caller's version; then the variable-length integer `w`, or `m` if `w = 0`; then the members belonging to this version, each given
this version. -/
theorem C39_layout_of_versioned_class (E : Env) (H : Heap) (n w : Nat) (c : ClassId) (ci : ClassInfo) (m : Nat) (st : Store) (ws ws' : WSt)
    (hc : E.cls c = some ci) (hv : ci.bin.version = some m) :
    write E H (n + 1) w (.cls c) (.obj st) ws = .ok () ws' ↔
      ∃ s1 L, WritesBases E H n w (.obj st) ci.bin.bases ws s1 ∧ varintLen (if w = 0 then m else w) = some L ∧
        WritesMembers E H n (if w = 0 then m else w) st (activeFields (if w = 0 then m else w) ci.bin.writeFields)
          { s1 with out := s1.out ++ beBytes L ((if w = 0 then m else w) + 2 ^ (7 * L)) } ws' := by
  simp only [write, writeStep, hc, writeClass, hv, writeVersion, effVersion]
  rw [M.bind_eq_ok]
  constructor
  · rintro ⟨⟨⟩, s1, h1, h⟩
    rw [M.bind_eq_ok] at h
    obtain ⟨⟨⟩, s2, h2, h3⟩ := h
    obtain ⟨L, hL, rfl⟩ := writeVarint_ok h2
    exact ⟨s1, L, (writesBases_iff ..).1 h1, hL, (writesMembers_iff ..).1 h3⟩
  · rintro ⟨s1, L, h1, hL, h3⟩
    refine ⟨(), s1, (writesBases_iff ..).2 h1, ?_⟩
    have : writeVarint (if w = 0 then m else w) s1 =
        .ok () { s1 with out := s1.out ++ beBytes L ((if w = 0 then m else w) + 2 ^ (7 * L)) } := by
      simp only [writeVarint, hL]
      rfl
    rw [M.bind_ok this]
    exact (writesMembers_iff ..).2 h3

/-- **C39**: an unversioned class hands the caller's version to its base classes and its members; no version is written. -/
theorem C39_layout_of_unversioned_class (E : Env) (H : Heap) (n w : Nat) (c : ClassId) (ci : ClassInfo) (st : Store) (ws ws' : WSt)
    (hc : E.cls c = some ci) (hv : ci.bin.version = none) :
    write E H (n + 1) w (.cls c) (.obj st) ws = .ok () ws' ↔
      ∃ s1, WritesBases E H n w (.obj st) ci.bin.bases ws s1 ∧
        WritesMembers E H n w st (activeFields w ci.bin.writeFields) s1 ws' := by
  simp only [write, writeStep, hc, writeClass, hv, writeVersion, effVersion]
  rw [M.bind_eq_ok]
  constructor
  · rintro ⟨⟨⟩, s1, h1, h⟩
    exact ⟨s1, (writesBases_iff ..).1 h1, (writesMembers_iff ..).1 h⟩
  · rintro ⟨s1, h1, h3⟩
    exact ⟨(), s1, (writesBases_iff ..).2 h1, (writesMembers_iff ..).2 h3⟩

/-- **C39**: writing with version 0 is the same as writing with the current version (for a class without base classes). -/
theorem C39_zero_means_current (E : Env) (H : Heap) (n : Nat) (c : ClassId) (ci : ClassInfo) (m : Nat) (v : Val)
    (hc : E.cls c = some ci) (hv : ci.bin.version = some m) (hb : ci.bin.bases = []) :
    write E H n 0 (.cls c) v = write E H n m (.cls c) v := by
  cases n with
  | zero => rfl
  | succ n =>
    cases v <;> simp [write, writeStep, hc, writeClass, hv, writeVersion, effVersion, hb, writeBases]

/-- **C39**: everything but a class drops the version: what is written and what is read does not depend on it. -/
theorem C39_version_dropped (E : Env) (H : Heap) (n w w' : Nat) (t : Ty) (ht : ∀ c, t ≠ .cls c) (v : Val) :
    write E H n w t v = write E H n w' t v ∧ read E n w t v = read E n w' t v := by
  cases n with
  | zero => exact ⟨rfl, rfl⟩
  | succ n =>
    constructor
    · simp only [write]
      unfold writeStep
      split <;> first | rfl | exact absurd rfl (ht _)
    · cases t <;> first | exact absurd rfl (ht _) | rfl

/-- the objects `vs` are written one after another with version 0 -/
inductive WritesAll (E : Env) (H : Heap) (n : Nat) : List (Ty × Val) → WSt → WSt → Prop
  | nil (s) : WritesAll E H n [] s s
  | cons {t v vs s s1 s2} : write E H n 0 t v s = .ok () s1 → WritesAll E H n vs s1 s2 → WritesAll E H n ((t, v) :: vs) s s2

theorem writesAll_elems (E : Env) (H : Heap) (n : Nat) (t : Ty) (vs : List Val) (s s' : WSt) :
    writeElems (write E H n) t vs s = .ok () s' ↔ WritesAll E H n (vs.map fun v => (t, v)) s s' := by
  induction vs generalizing s with
  | nil =>
    constructor
    · intro h; cases h; exact .nil _
    · intro h; cases h; rfl
  | cons v vs ih =>
    rw [writeElems, M.bind_eq_ok, List.map_cons]
    constructor
    · rintro ⟨⟨⟩, s1, h1, h2⟩
      exact .cons h1 ((ih s1).1 h2)
    · intro h
      cases h with
      | cons h1 h2 => exact ⟨(), _, h1, (ih _).2 h2⟩

theorem writesAll_entries (E : Env) (H : Heap) (n : Nat) (k t : Ty) (vs : List (Val × Val)) (s s' : WSt) :
    writeEntries (write E H n) k t vs s = .ok () s' ↔ WritesAll E H n (vs.map fun q => (.pair k t, .tup [q.1, q.2])) s s' := by
  induction vs generalizing s with
  | nil =>
    constructor
    · intro h; cases h; exact .nil _
    · intro h; cases h; rfl
  | cons v vs ih =>
    obtain ⟨a, b⟩ := v
    rw [writeEntries, M.bind_eq_ok, List.map_cons]
    constructor
    · rintro ⟨⟨⟩, s1, h1, h2⟩
      exact .cons h1 ((ih s1).1 h2)
    · intro h
      cases h with
      | cons h1 h2 => exact ⟨(), _, h1, (ih _).2 h2⟩

/-- What wrapper types contain, in the order it is written (the entries of a map as pairs, the object behind a shared pointer only
if it has not been written before). -/
inductive Contains (E : Env) (H : Heap) (seen : List Nat) : Ty → Val → List (Ty × Val) → Prop
  | pair {a b x y} : Contains E H seen (.pair a b) (.tup [x, y]) [(a, x), (b, y)]
  | optNone {t} : Contains E H seen (.opt t) .null []
  | opt {t v} : Contains E H seen (.opt t) (.some v) [(t, v)]
  | uptrNone {t} : Contains E H seen (.uptr t) .null []
  | uptr {t v} : Contains E H seen (.uptr t) (.ptr v) [(t, v)]
  | sptrNone {t} : Contains E H seen (.sptr t) .null []
  | sptrFirst {t a v} : a ∉ seen → H a = some v → Contains E H seen (.sptr t) (.ref a) [(t, v)]
  | sptrSeen {t a} : a ∈ seen → Contains E H seen (.sptr t) (.ref a) []
  | vec {t vs} : Contains E H seen (.vec t) (.list vs) (vs.map fun v => (t, v))
  | set {hashed multi t vs} : Contains E H seen (.set hashed multi t) (.list vs) ((E.order hashed vs).map fun v => (t, v))
  | map {hashed multi k t kvs} : Contains E H seen (.map hashed multi k t) (.map kvs)
      ((E.orderKV hashed kvs).map fun q => (.pair k t, .tup [q.1, q.2]))
  | variantMono {ts : List Ty} {i : Nat} {v} : ts[i]? = some .mono → Contains E H seen (.variant ts) (.alt i v) []
  | variant {ts : List Ty} {i : Nat} {t v} : ts[i]? = some t → t ≠ .mono → Contains E H seen (.variant ts) (.alt i v) [(t, v)]
  | enum {u i} : Contains E H seen (.enum u) (.int i) [(.int u, .int i)]

/-- **C39**: whatever the version given, a container, pointer, optional, pair, variant or enum writes what it contains with version
0, that is versioned classes within use their current version. -/
theorem C39_content_written_with_version_zero (E : Env) (H : Heap) (n w : Nat) (t : Ty) (v : Val) (xs : List (Ty × Val)) (ws ws' : WSt)
    (hx : Contains E H ws.seen t v xs) (h : write E H (n + 1) w t v ws = .ok () ws') :
    ∃ s1, WritesAll E H n xs s1 ws' := by
  simp only [write] at h
  cases hx with
  | pair =>
    simp only [writeStep] at h
    rw [M.bind_eq_ok] at h
    obtain ⟨⟨⟩, s1, h1, h2⟩ := h
    exact ⟨ws, .cons h1 (.cons h2 (.nil _))⟩
  | optNone => exact ⟨_, .nil _⟩
  | uptrNone => exact ⟨_, .nil _⟩
  | sptrNone => exact ⟨_, .nil _⟩
  | opt =>
    simp only [writeStep] at h
    rw [M.bind_eq_ok] at h
    obtain ⟨⟨⟩, s1, h1, h2⟩ := h
    exact ⟨s1, .cons h2 (.nil _)⟩
  | uptr =>
    simp only [writeStep] at h
    rw [M.bind_eq_ok] at h
    obtain ⟨⟨⟩, s1, h1, h2⟩ := h
    exact ⟨s1, .cons h2 (.nil _)⟩
  | @sptrFirst _ a _ hns hv =>
    simp only [writeStep] at h
    have h0 : alreadyWritten a ws = .ok false ws := by simp [alreadyWritten, hns]
    rw [M.bind_ok h0, M.bind_eq_ok] at h
    obtain ⟨⟨⟩, s1, h1, h⟩ := h
    rw [M.bind_eq_ok] at h
    obtain ⟨⟨⟩, s2, h2, h⟩ := h
    rw [if_neg (by simp), M.bind_eq_ok] at h
    obtain ⟨⟨⟩, s3, h3, h⟩ := h
    rw [hv] at h
    exact ⟨s3, .cons h (.nil _)⟩
  | sptrSeen => exact ⟨_, .nil _⟩
  | vec =>
    simp only [writeStep] at h
    rw [M.bind_eq_ok] at h
    obtain ⟨⟨⟩, s1, h1, h2⟩ := h
    exact ⟨s1, (writesAll_elems ..).1 h2⟩
  | set =>
    simp only [writeStep] at h
    rw [M.bind_eq_ok] at h
    obtain ⟨⟨⟩, s1, h1, h2⟩ := h
    exact ⟨s1, (writesAll_elems ..).1 h2⟩
  | map =>
    simp only [writeStep] at h
    rw [M.bind_eq_ok] at h
    obtain ⟨⟨⟩, s1, h1, h2⟩ := h
    exact ⟨s1, (writesAll_entries ..).1 h2⟩
  | variantMono => exact ⟨_, .nil _⟩
  | @variant ts i t v ht hm =>
    obtain ⟨t', h1, -, -, h3⟩ := C35_first_byte_is_index E H n w ts i v ws ws' h
    rw [ht] at h1
    cases h1
    exact ⟨_, .cons (h3 hm) (.nil _)⟩
  | enum => exact ⟨ws, .cons h (.nil _)⟩

-- Derived (version 3) within a vector, written with version 2: the element is prefixed with 3
example : ∃ ws, write Demo.env (fun _ => none) 5 2 (.vec (.cls 1)) (.list [.obj Demo.derivedInit]) WSt.init = .ok () ws ∧
    ws.out = [0x81, 0, 0, 0, 0, 0x80, 0x83, 0x80] := ⟨_, rfl, by decide⟩
-- written directly with version 1 the prefix is 1 and the member `s` (as of version 2) is not written
example : ∃ ws, write Demo.env (fun _ => none) 5 1 (.cls 1) (.obj Demo.derivedInit) WSt.init = .ok () ws ∧
    ws.out = [0, 0, 0, 0, 0x80, 0x81] := ⟨_, rfl, by decide⟩

end Verif
