import Verif.Props.BinaryVersions

/-!
# C40, C41: limits of explicit versions in the binary format
-/

namespace Verif

variable {E : Env} {H : Heap} {HT : Nat → Option Ty} {ρ : Nat → Nat}

/-! ## C40: nested class with lower maximum version -/

/-- If the writer `w` succeeds then the reader `r` run on its output (followed by anything) throws `e`. -/
def PairExc (HT : Nat → Option Ty) (ρ : Nat → Nat) {α : Type} (w : WM Unit) (r : RM α) (e : BExc) : Prop :=
  ∀ ws ws', w ws = .ok () ws' → ws.seen <:+ ws'.seen ∧ ∃ bytes, ws'.out = ws.out ++ bytes ∧
    (∀ {base : Nat}, Agrees base ρ ws'.seen → ∀ rs rest, rs.inp = bytes ++ rest → Corr base HT ws.seen rs → ∃ rs', r rs = .exc e rs')

theorem PairExc.after {α β : Type} {w1 w2 : WM Unit} {r1 : RM α} {r2 : α → RM β} {a : α} {e : BExc} {R : Nat → Prop}
    (h1 : Pair H HT ρ w1 r1 a R) (h2 : PairExc HT ρ w2 (r2 a) e) : PairExc HT ρ (w1 >>= fun _ => w2) (r1 >>= r2) e := by
  intro ws ws'' hw
  rw [M.bind_eq_ok] at hw
  obtain ⟨⟨⟩, ws', hw1, hw2⟩ := hw
  obtain ⟨s1, b1, o1, c1⟩ := h1 _ _ hw1
  obtain ⟨s2, b2, o2, c2⟩ := h2 _ _ hw2
  refine ⟨s1.trans s2, b1 ++ b2, by rw [o2, o1, List.append_assoc], fun ha rs rest hi hc => ?_⟩
  obtain ⟨-, rs', e2, e3, e4, -⟩ := c1 (ha.suffix s2) rs (b2 ++ rest) (by rw [hi, List.append_assoc]) hc
  obtain ⟨rs'', f⟩ := c2 ha rs' rest e3 e4
  exact ⟨rs'', by rw [M.bind_ok e2, f]⟩

theorem PairExc.first {α β : Type} {w1 w2 : WM Unit} {r1 : RM α} {r2 : α → RM β} {e : BExc}
    (h1 : PairExc HT ρ w1 r1 e) (h2 : Appends Unit w2) : PairExc HT ρ (w1 >>= fun _ => w2) (r1 >>= r2) e := by
  intro ws ws'' hw
  rw [M.bind_eq_ok] at hw
  obtain ⟨⟨⟩, ws', hw1, hw2⟩ := hw
  obtain ⟨s1, b1, o1, c1⟩ := h1 _ _ hw1
  obtain ⟨⟨b2, o2⟩, s2⟩ := h2.ok hw2
  refine ⟨s1.trans s2, b1 ++ b2, by rw [← o2, o1, List.append_assoc], fun ha rs rest hi hc => ?_⟩
  obtain ⟨rs', f⟩ := c1 (ha.suffix s2) rs (b2 ++ rest) (by rw [hi, List.append_assoc]) hc
  exact ⟨rs', M.bind_exc f⟩

theorem appends_fields (n version : Nat) (fs : List (Guard × Field)) (st : Store) : Appends Unit (writeFields (write E H n) version fs st) :=
  (appends_closed H).to3.fields (self' := write E H n) (fun w t v => write_appends E H n w t v) version fs st

theorem fieldsOK_nodup {st : Store} {Q : List (Nat × Nat × Field)} {cur : Store} (hn : (Q.map fun q => q.2.2.key).Nodup)
    (h : ∀ q ∈ Q, ∃ p v, cur.get? q.2.2.key = some p ∧ st.get? q.2.2.key = some v ∧ BRepr E HT ρ q.1 q.2.1 q.2.2.ty p v) :
    FieldsOK E HT ρ st Q cur := by
  induction Q generalizing cur with
  | nil => trivial
  | cons q Q ih =>
    rw [List.map_cons, List.nodup_cons] at hn
    obtain ⟨p, v, h1, h2, h3⟩ := h q List.mem_cons_self
    refine ⟨p, v, h1, h2, h3, ih hn.2 fun q' hq' => ?_⟩
    obtain ⟨p', v', g1, g2, g3⟩ := h q' (List.mem_cons_of_mem _ hq')
    refine ⟨p', v', ?_, g2, g3⟩
    rw [get?_set_ne _ _ fun he => hn.1 (List.mem_map.2 ⟨q', hq', he⟩), g1]

theorem applyRead_other (st : Store) (Q : List (Nat × Nat × Field)) (cur : Store) (k : FieldKey) (hk : ∀ q ∈ Q, q.2.2.key ≠ k) :
    (applyRead ρ st Q cur).get? k = cur.get? k := by
  induction Q generalizing cur with
  | nil => rfl
  | cons q Q ih =>
    rw [applyRead, ih _ fun q' hq' => hk q' (List.mem_cons_of_mem _ hq')]
    split
    · exact get?_set_ne _ _ (Ne.symm (hk q List.mem_cons_self))
    · rfl

/-- The nested object itself: its base classes can be restored, but then the version is rejected. -/
theorem nested_rejected (hH : HeapRepr E H HT ρ) {n vw vr : Nat} {d : ClassId} {di : ClassInfo} {m : Nat} (hd : E.cls d = some di)
    (hr : di.bin.readable = true) (hv : di.bin.version = some m) (hm : m < (if vw = 0 then m else vw)) {Q : List (Nat × Nat × Field)}
    (hf : FlatBin E vw vr di.bin.bases Q) (st cur : Store) (hk : FieldsOK E HT ρ st Q cur) :
    PairExc HT ρ (write E H (n + 1) vw (.cls d) (.obj st)) (read E (n + 1) vr (.cls d) (.obj cur)) (.version vw m di.qname) := by
  have hvw : vw ≠ 0 := by
    rintro rfl
    simp at hm
  rw [if_neg hvw] at hm
  have hB := (pair_all hH n).2
  simp only [write, writeStep, read, readStep, hd, writeClass, readClass, hr]
  rw [if_neg (by simp), M.bind_assoc']
  refine PairExc.after (pair_bases hf st (fun c Q => hB st vw vr c Q) cur hk) ?_
  dsimp only
  rw [M.bind_assoc']
  refine PairExc.first ?_ (appends_fields n _ _ _)
  intro ws ws' hw
  simp only [writeVersion, hv, effVersion, if_neg hvw] at hw
  obtain ⟨L, hL, rfl⟩ := writeVarint_ok hw
  refine ⟨List.suffix_rfl, _, rfl, fun _ rs rest hi _ => ?_⟩
  obtain ⟨h1, h2, h3, -⟩ := varintLen_some hL
  have := readVarint_append h1 h2 h3 rest rs
  rw [← hi] at this
  refine ⟨{ rs with inp := rest }, ?_⟩
  simp only [readVersion, hv]
  rw [M.bind_ok this, if_neg (by omega)]
  rfl

/-- **C40**: class `c` has a direct member `f` of the versioned class `d`; the version `eff` in effect (the version explicitly
given, otherwise `c`'s current version) is supported by `c` but exceeds `d`'s maximum version `md`. `pre` and `post` are the other
members (as of version `eff`), `Q` the members handled by the base classes of `c`, `Qd` those handled by the base classes of `d`;
`st`/`x` are the content of the object written and of its member, `st0`/`x0` the content of the object read into. All that precedes
the version of the member is assumed to be representable. Then, if the object can be written, reading the result throws
`VersionNotSupported` - it can not be read back. -/
theorem C40_nested_version_makes_unreadable (hH : ∀ ρ, HeapRepr E H HT ρ) (n m vw vr : Nat) (c d : ClassId) (ci di : ClassInfo) (mc md eff : Nat)
    (hc : E.cls c = some ci) (hcr : ci.bin.readable = true) (hcv : ci.bin.version = some mc) (heff : eff = if vw = 0 then mc else vw)
    (hM : eff ≤ mc) (hd : E.cls d = some di) (hdr : di.bin.readable = true) (hdv : di.bin.version = some md) (hmd : md < eff)
    (pre post : List Field) (f : Field) (hfty : f.ty = .cls d)
    (hwf : activeFields eff ci.bin.writeFields = pre ++ f :: post) (hrf : activeFields eff ci.bin.readFields = pre ++ f :: post)
    (Q Qd : List (Nat × Nat × Field)) (hQ : FlatBin E vw vr ci.bin.bases Q) (hQd : FlatBin E eff eff di.bin.bases Qd)
    (st0 st x0 x : Store)
    (hkeys : ((Q.map fun q => q.2.2.key) ++ pre.map Field.key ++ [f.key]).Nodup) (hkeysd : (Qd.map fun q => q.2.2.key).Nodup)
    (hfx0 : st0.get? f.key = some (.obj x0)) (hfx : st.get? f.key = some (.obj x))
    (hrQ : ∀ ρ, ∀ q ∈ Q, ∃ p v, st0.get? q.2.2.key = some p ∧ st.get? q.2.2.key = some v ∧ BRepr E HT ρ q.1 q.2.1 q.2.2.ty p v)
    (hrp : ∀ ρ, ∀ g ∈ pre, ∃ p v, st0.get? g.key = some p ∧ st.get? g.key = some v ∧ BRepr E HT ρ eff eff g.ty p v)
    (hrd : ∀ ρ, ∀ q ∈ Qd, ∃ p v, x0.get? q.2.2.key = some p ∧ x.get? q.2.2.key = some v ∧ BRepr E HT ρ q.1 q.2.1 q.2.2.ty p v)
    (hnm : n ≤ m) (ws : WSt) (hw : write E H n vw (.cls c) (.obj st) WSt.init = .ok () ws) (rest : Str) :
    ∃ rs, read E m vr (.cls c) (.obj st0) (RSt.init (ws.out ++ rest)) = .exc (.version eff md di.qname) rs := by
  have heff0 : eff ≠ 0 := by omega
  suffices hp : PairExc HT (numbering ws.seen) (write E H n vw (.cls c) (.obj st)) (read E n vr (.cls c) (.obj st0)) (.version eff md di.qname) by
    obtain ⟨-, bytes, h2, h3⟩ := hp _ _ hw
    have h2 : ws.out = bytes := h2
    obtain ⟨rs, hrs⟩ := h3 (agrees_numbering _) (RSt.init (ws.out ++ rest)) rest (by rw [h2]; rfl) (corr_init _)
    exact ⟨rs, read_mono hnm hrs (by simp)⟩
  generalize numbering ws.seen = ρ
  specialize hH ρ
  specialize hrQ ρ
  specialize hrp ρ
  specialize hrd ρ
  match n with
  | 0 => intro a b h; cases h
  | 1 =>
    intro a b h
    exfalso
    simp only [write, writeStep, hc, writeClass] at h
    rw [M.bind_eq_ok] at h
    obtain ⟨⟨⟩, s1, -, h⟩ := h
    rw [M.bind_eq_ok] at h
    obtain ⟨⟨⟩, s2, -, h⟩ := h
    have he : effVersion ci.bin.version vw = eff := by rw [hcv, heff, effVersion]
    rw [he, writeFields_active, hwf] at h
    cases pre with
    | nil =>
      simp only [List.nil_append, List.map_cons, writeFields] at h
      rw [if_pos (guard_all _), hfx] at h
      cases h
    | cons g pre =>
      obtain ⟨p, v, -, g2, -⟩ := hrp g List.mem_cons_self
      simp only [List.cons_append, List.map_cons, writeFields] at h
      rw [if_pos (guard_all _), g2] at h
      cases h
  | n + 2 =>
    have hP := pair_all hH (n + 1)
    rw [List.append_assoc, List.nodup_append] at hkeys
    obtain ⟨k1, k2, k3⟩ := hkeys
    rw [List.nodup_append] at k2
    obtain ⟨k4, -, k6⟩ := k2
    have hokQ : FieldsOK E HT ρ st Q st0 := fieldsOK_nodup k1 hrQ
    have hokP : FieldsOK E HT ρ st (pre.map fun g => (eff, eff, g)) (applyRead ρ st Q st0) := by
      refine fieldsOK_nodup (by rw [List.map_map]; exact k4) fun q hq => ?_
      obtain ⟨g, hg, rfl⟩ := List.mem_map.1 hq
      obtain ⟨p, v, h1, h2, h3⟩ := hrp g hg
      refine ⟨p, v, ?_, h2, h3⟩
      rw [applyRead_other st Q st0 _ fun q hq => k3 _ (List.mem_map_of_mem hq) _ (List.mem_append_left _ (List.mem_map_of_mem hg)), h1]
    have hget : (applyRead ρ st (pre.map fun g => (eff, eff, g)) (applyRead ρ st Q st0)).get? f.key = some (.obj x0) := by
      rw [applyRead_other, applyRead_other, hfx0]
      · exact fun q hq => k3 _ (List.mem_map_of_mem hq) _ (List.mem_append_right _ (List.mem_singleton.2 rfl))
      · intro q hq
        obtain ⟨g, hg, rfl⟩ := List.mem_map.1 hq
        exact k6 _ (List.mem_map_of_mem hg) _ (List.mem_singleton.2 rfl)
    have hnest := nested_rejected hH (n := n) (vw := eff) (vr := eff) hd hdr hdv (by rw [if_neg heff0]; exact hmd) hQd x x0
      (fieldsOK_nodup hkeysd hrd)
    have happ : ∀ (sw : Nat → Ty → Val → WM Unit) (fs gs : List Field) (s : Store),
        writeFields sw eff ((fs ++ gs).map fun g => (⟨0, 0⟩, g)) s =
          (writeFields sw eff (fs.map fun g => (⟨0, 0⟩, g)) s >>= fun _ => writeFields sw eff (gs.map fun g => (⟨0, 0⟩, g)) s) := by
      intro sw fs gs s
      induction fs with
      | nil => rfl
      | cons g fs ih =>
        simp only [List.cons_append, List.map_cons, writeFields, ih]
        rw [if_pos (guard_all _), if_pos (guard_all _)]
        split
        · rfl
        · rw [M.bind_assoc']
    have happr : ∀ (sr : Nat → Ty → Val → RM Val) (fs gs : List Field) (s : Store),
        readFields sr eff ((fs ++ gs).map fun g => (⟨0, 0⟩, g)) s =
          (readFields sr eff (fs.map fun g => (⟨0, 0⟩, g)) s >>= fun s' => readFields sr eff (gs.map fun g => (⟨0, 0⟩, g)) s') := by
      intro sr fs gs s
      induction fs generalizing s with
      | nil => rfl
      | cons g fs ih =>
        simp only [List.cons_append, List.map_cons, readFields, ih]
        rw [if_pos (guard_all _), if_pos (guard_all _)]
        split
        · rfl
        · rw [M.bind_assoc']
    have e1 : write E H (n + 2) vw (.cls c) (.obj st) = writeClass (write E H (n + 1)) ci vw st := by
      simp only [write, writeStep, hc]
    have e2 : read E (n + 2) vr (.cls c) (.obj st0) = (readClass (read E (n + 1)) ci vr (.obj st0) >>= fun r => pure r.1) := by
      conv => lhs; unfold read
      simp only [readStep, hc]
    rw [e1, e2]
    have he : effVersion ci.bin.version vw = eff := by rw [hcv, heff, effVersion]
    simp only [writeClass, readClass, hcr]
    rw [if_neg (by simp), M.bind_assoc', he]
    refine PairExc.after (pair_bases hQ st (fun c Q => hP.2 st vw vr c Q) st0 hokQ) ?_
    dsimp only
    rw [M.bind_assoc']
    refine PairExc.after (H := H) (a := eff) (R := fun _ => False) ?_ ?_
    · simp only [writeVersion, readVersion, hcv]
      rw [← hcv, he]
      have e : (writeVarint eff >>= fun _ => (Pure.pure () : WM Unit)) = writeVarint eff := M.bind_pure' _
      rw [← e]
      refine (Pair.bind (Pair.varint eff) (R2 := fun _ => False) ?_).mono (fun _ h => False.elim h)
      rw [if_pos hM]
      exact Pair.pure _
    · rw [M.bind_assoc', writeFields_active, readFields_active, hwf, hrf, happ, happr, M.bind_assoc']
      refine PairExc.after (pair_fields hP.1 eff eff pre st _ hokP) ?_
      simp only [List.map_cons, writeFields, readFields]
      rw [if_pos (guard_all _), if_pos (guard_all _), hfx, hget, hfty]
      dsimp only
      rw [M.bind_assoc']
      exact PairExc.first hnest (appends_fields _ _ _ _)

/-! ## C41: explicit versions and base classes -/

/-- `Unconditional E cs fs`: neither the classes `cs` nor their base classes are versioned or have version-dependent members (and
they can be read); `fs` are all their members in the order in which they are written and read. -/
inductive Unconditional (E : Env) : List ClassId → List Field → Prop
  | nil : Unconditional E [] []
  | cons {c ci cs bs fs own} : E.cls c = some ci → ci.bin.readable = true → ci.bin.version = none →
      ci.bin.writeFields = own.map (fun f => (⟨0, 0⟩, f)) → ci.bin.readFields = own.map (fun f => (⟨0, 0⟩, f)) →
      Unconditional E ci.bin.bases bs → Unconditional E cs fs → Unconditional E (c :: cs) (bs ++ own ++ fs)

theorem activeFields_all (v : Nat) (own : List Field) : activeFields v (own.map fun f => ((⟨0, 0⟩ : Guard), f)) = own := by
  unfold activeFields
  induction own with
  | nil => rfl
  | cons f own ih =>
    rw [List.map_cons, List.filter_cons, if_pos (guard_all _), List.map_cons, ih]

theorem Unconditional.flat {cs : List ClassId} {fs : List Field} (h : Unconditional E cs fs) (vw vr : Nat) :
    FlatBin E vw vr cs (fs.map fun f => (vw, vr, f)) := by
  induction h with
  | nil => exact .nil _ _
  | @cons c ci cs bs fs own h1 h2 h3 h4 h5 _ _ ih1 ih2 =>
    have := FlatBin.plain (vw := vw) (vr := vr) h1 h2 h3 ih1 (by rw [h4, h5, activeFields_all, activeFields_all]) ih2
    rw [h5, activeFields_all] at this
    rw [List.map_append, List.map_append]
    exact this

/-- **C41**: an object of a versioned class `c` written with any explicit version `w` up to the current version `m` is restored
by `restoreFromBinary`/`fromBinary` (here into an object `st0`), returning `w`, if the base classes do not have version-dependent
members. `B` are the members of the base classes and `own` those of `c` as of version `w`; their values have to be representable,
in case of `B` when written with `w` and read with 0. Other members are to have their value already. -/
theorem C41_explicit_version_restored (hH : ∀ ρ, HeapRepr E H HT ρ) (n n' w : Nat) (c : ClassId) (ci : ClassInfo) (m : Nat)
    (hc : E.cls c = some ci) (hr : ci.bin.readable = true) (hv : ci.bin.version = some m) (hw0 : w ≠ 0) (hwm : w ≤ m)
    (B own : List Field) (hB : Unconditional E ci.bin.bases B)
    (hwf : activeFields w ci.bin.writeFields = own) (hrf : activeFields w ci.bin.readFields = own)
    (st0 st : Store) (hks : st0.map Prod.fst = st.map Prod.fst) (hn : (st.map Prod.fst).Nodup) (hkeys : ((B ++ own).map Field.key).Nodup)
    (hrB : ∀ ρ, ∀ f ∈ B, ∃ p v, st0.get? f.key = some p ∧ st.get? f.key = some v ∧ BRepr E HT ρ w 0 f.ty p v)
    (hrO : ∀ ρ, ∀ f ∈ own, ∃ p v, st0.get? f.key = some p ∧ st.get? f.key = some v ∧ BRepr E HT ρ w w f.ty p v)
    (hrest : ∀ k, (∀ f ∈ B ++ own, f.key ≠ k) → st0.get? k = st.get? k ∧ ∀ v, st.get? k = some v → v.refs = [])
    (hnn : n ≤ n' + 1) (ws : WSt) (hwr : toBinary E H n c (.obj st) w = .ok () ws) (rest : Str) :
    ∃ ρ v' rs, restoreFromBinary E n' c (.obj st0) (ws.out ++ rest) = .ok (v', w) rs ∧ rs.inp = rest ∧
      GraphCopy H (.obj st) rs.asHeap v' ρ := by
  have hflat : FlatBin E w 0 [c] (B.map (fun f => (w, 0, f)) ++ own.map (fun f => (w, w, f))) := by
    have := FlatBin.versioned (vw := w) (vr := 0) w hc hr hv (by rw [if_neg hw0]) hwm (hB.flat w 0) (by rw [hwf, hrf]) (.nil _ _)
    rw [hrf, List.append_nil] at this
    exact this
  have hmem : ∀ q ∈ (B.map (fun f => (w, 0, f)) ++ own.map (fun f => (w, w, f))), ∀ ρ, ∃ p v, st0.get? q.2.2.key = some p ∧
      st.get? q.2.2.key = some v ∧ BRepr E HT ρ q.1 q.2.1 q.2.2.ty p v := by
    intro q hq ρ
    rcases List.mem_append.1 hq with hq | hq
    · obtain ⟨f, hf, rfl⟩ := List.mem_map.1 hq
      exact hrB ρ f hf
    · obtain ⟨f, hf, rfl⟩ := List.mem_map.1 hq
      exact hrO ρ f hf
  have hmap : (B.map (fun f => (w, 0, f)) ++ own.map (fun f => (w, w, f))).map (fun q : Nat × Nat × Field => q.2.2.key) = (B ++ own).map Field.key := by
    simp [Function.comp_def]
  have hnd : ∀ q ∈ (B.map (fun f => (w, 0, f)) ++ own.map (fun f => (w, w, f))),
      ((B.map (fun f => (w, 0, f)) ++ own.map (fun f => (w, w, f))).filter fun q' : Nat × Nat × Field => q'.2.2.key = q.2.2.key).length ≤ 1 := by
    intro q _
    have h1 : ((B ++ own).map Field.key).count q.2.2.key ≤ 1 := List.nodup_iff_count.1 hkeys _
    rw [← hmap, List.count, List.countP_map, List.countP_eq_length_filter] at h1
    refine Nat.le_trans (Nat.le_of_eq ?_) h1
    congr 1
    apply List.filter_congr
    intro x _
    by_cases hh : x.2.2.key = q.2.2.key
    · simp [hh]
    · simp [hh, beq_eq_false_iff_ne.2 hh]
  have hv' : ∀ ρ, BRepr E HT ρ w 0 (.cls c) (.obj st0) (.obj st) := by
    intro ρ
    refine .cls hflat hks hn (fun q hq => ?_) (fun q hq p v hp hv => ?_) (fun q hq v h2 _ => ?_) (fun k hk => hrest k fun f hf he => ?_)
    · obtain ⟨p, v, -, h2, -⟩ := hmem q hq ρ
      exact ⟨v, h2⟩
    · obtain ⟨p', v', h1, h2, h3⟩ := hmem q hq ρ
      rw [h1] at hp
      rw [h2] at hv
      cases hp
      cases hv
      exact h3
    · have := hnd q hq
      omega
    · rcases List.mem_append.1 hf with hf | hf
      · exact hk (w, 0, f) (List.mem_append_left _ (List.mem_map_of_mem hf)) he
      · exact hk (w, w, f) (List.mem_append_right _ (List.mem_map_of_mem hf)) he
  obtain ⟨ρ, v', rs, h1, h2, h3⟩ := C27_toBinary_restoreFromBinary E H HT n n' c ci (.obj st0) (.obj st) w ws hH hv' hc hnn hwr rest
  rw [hv] at h1
  simp only [if_neg hw0] at h1
  exact ⟨ρ, v', rs, h1, h2, h3⟩

/-! ## examples -/

namespace VDemo

def fX : Field := ⟨10, lit "x", .int .u8⟩
def fA : Field := ⟨11, lit "a", .int .u8⟩
def fIn : Field := ⟨11, lit "in", .cls 10⟩
def fB : Field := ⟨11, lit "b", .int .u8⟩
def fC : Field := ⟨12, lit "c", .int .u8⟩
def fD : Field := ⟨13, lit "d", .int .u8⟩
def fE : Field := ⟨14, lit "e", .int .u8⟩
def fF : Field := ⟨15, lit "f", .int .u8⟩

def mk (name : String) (bases : List ClassId) (version : Option Nat) (fs : List (Guard × Field)) (init : Store) : ClassInfo where
  qname := lit name
  json := ⟨[], [], [], true, true⟩
  bin := ⟨bases, version, fs, fs, true⟩
  valInit := init
  defInit := init

def innerInit : Store := [(fX.key, .int 0)]
def outerInit : Store := [(fA.key, .int 0), (fIn.key, .obj innerInit), (fB.key, .int 0)]

/-- 10 `Inner` (version 1), 11 `Outer` (version 3) with a member of type `Inner`; 12 `Old` with a member as of version 1, 13 `New : Old`
(version 2); 14 `Plain`, 15 `Child : Plain` (version 2, member as of version 2) -/
def env : Env := { Demo.env with
  cls := fun c => match c with
    | 10 => some (mk "Inner" [] (some 1) [(⟨0, 0⟩, fX)] innerInit)
    | 11 => some (mk "Outer" [] (some 3) [(⟨0, 0⟩, fA), (⟨2, 0⟩, fIn), (⟨0, 0⟩, fB)] outerInit)
    | 12 => some (mk "Old" [] none [(⟨1, 0⟩, fC)] [(fC.key, .int 0)])
    | 13 => some (mk "New" [12] (some 2) [(⟨0, 0⟩, fD)] [(fC.key, .int 0), (fD.key, .int 0)])
    | 14 => some (mk "Plain" [] none [(⟨0, 0⟩, fE)] [(fE.key, .int 0)])
    | 15 => some (mk "Child" [14] (some 2) [(⟨2, 0⟩, fF)] [(fE.key, .int 0), (fF.key, .int 0)])
    | _ => none }

-- C40: toBinary() (current version 3) succeeds, but the result is rejected because of the member
example : ∃ ws rs, toBinary env (fun _ => none) 5 11 (.obj outerInit) 0 = .ok () ws ∧ ws.out = [0x83, 0, 0x83, 0, 0] ∧
    read env 5 0 (.cls 11) (.obj outerInit) (RSt.init (ws.out ++ [])) = .exc (.version 3 1 (lit "Inner")) rs := by
  have hw : toBinary env (fun _ => none) 5 11 (.obj outerInit) 0 = .ok () ⟨[0x83, 0, 0x83, 0, 0], []⟩ := rfl
  have hu8 : ∀ ρ, BRepr env (fun _ => none) ρ 3 3 (.int .u8) (.int 0) (.int 0) := fun ρ =>
    .int _ _ _ _ _ (by decide) (by decide) (by decide)
  obtain ⟨rs, h⟩ := C40_nested_version_makes_unreadable (E := env) (H := fun _ => none) (HT := fun _ => none)
    (fun ρ a t h => by cases h) 5 5 0 0 11 10 _ _ 3 1 3 rfl rfl rfl rfl (by decide) rfl rfl rfl (by decide) [fA] [fB] fIn rfl rfl rfl [] []
    (.nil _ _) (.nil _ _) outerInit outerInit innerInit innerInit (by decide) (by decide) rfl rfl (by simp)
    (by simp only [List.mem_singleton, forall_eq]; exact fun ρ => ⟨_, _, rfl, rfl, hu8 ρ⟩) (by simp) (Nat.le_refl _) _ hw []
  exact ⟨_, rs, hw, rfl, h⟩

-- C41: Child with explicit version 1 and 2
example : ∃ ws, toBinary env (fun _ => none) 5 15 (.obj [(fE.key, .int 5), (fF.key, .int 6)]) 2 = .ok () ws ∧ ws.out = [5, 0x82, 6] ∧
    ∃ ρ v' rs, restoreFromBinary env 4 15 (.obj [(fE.key, .int 0), (fF.key, .int 0)]) (ws.out ++ []) = .ok (v', 2) rs ∧ rs.inp = [] ∧
      GraphCopy (fun _ => none) (.obj [(fE.key, .int 5), (fF.key, .int 6)]) rs.asHeap v' ρ := by
  have hw : toBinary env (fun _ => none) 5 15 (.obj [(fE.key, .int 5), (fF.key, .int 6)]) 2 = .ok () ⟨[5, 0x82, 6], []⟩ := rfl
  refine ⟨_, hw, rfl, ?_⟩
  refine C41_explicit_version_restored (E := env) (H := fun _ => none) (HT := fun _ => none) (fun ρ a t h => by cases h) 5 4 2 15 _ 2 rfl rfl rfl
    (by decide) (by decide) [fE] [fF] ?_ rfl rfl _ _ rfl (by decide) (by decide) ?_ ?_ ?_ (by decide) _ hw []
  · exact Unconditional.cons (bs := []) (own := [fE]) (fs := []) rfl rfl rfl rfl rfl .nil .nil
  · simp only [List.mem_singleton, forall_eq]
    exact fun ρ => ⟨_, _, rfl, rfl, .int _ _ _ _ _ (by decide) (by decide) (by decide)⟩
  · simp only [List.mem_singleton, forall_eq]
    exact fun ρ => ⟨_, _, rfl, rfl, .int _ _ _ _ _ (by decide) (by decide) (by decide)⟩
  · intro k hk
    have h1 := hk fE (by simp)
    have h2 := hk fF (by simp)
    have : ∀ a b : Val, Store.get? [(fE.key, a), (fF.key, b)] k = none := by
      intro a b
      simp [Store.get?, List.lookup, beq_eq_false_iff_ne.2 (Ne.symm h1), beq_eq_false_iff_ne.2 (Ne.symm h2)]
    simp [this]

end VDemo

/-- **C41** (limit): if a base class has a version-dependent member, an explicit version can be misread without any error: `New`
(version 2) derives from `Old` the member `c` of which exists as of version 1. `{c: 0x81, d: 7}` written with explicit version 2 is
restored as `{c: 0, d: 0x82}` (with version 1) because the base class is written with version 2 but read with version 0. -/
theorem C41_misread_with_version_dependent_base :
    ∃ ws rs, toBinary VDemo.env (fun _ => none) 5 13 (.obj [(VDemo.fC.key, .int 0x81), (VDemo.fD.key, .int 7)]) 2 = .ok () ws ∧
      restoreFromBinary VDemo.env 4 13 (.obj [(VDemo.fC.key, .int 0), (VDemo.fD.key, .int 0)]) ws.out =
        .ok (.obj [(VDemo.fC.key, .int 0), (VDemo.fD.key, .int 0x82)], 1) rs ∧ rs.inp = [7] := by
  have hw : toBinary VDemo.env (fun _ => none) 5 13 (.obj [(VDemo.fC.key, .int 0x81), (VDemo.fD.key, .int 7)]) 2 =
    .ok () ⟨[0x81, 0x82, 7], []⟩ := rfl
  exact ⟨_, RSt.init [7], hw, rfl, rfl⟩

end Verif
