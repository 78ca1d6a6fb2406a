import Verif.Spec.BinForm
import Verif.Lemmas.Bytes
import Verif.Lemmas.BinRel
import Verif.Lemmas.BinWClosed
import Verif.Lemmas.BinWConv
import Verif.Demo

/-!
# C60: the binary representation of objects
-/

namespace Verif

/-! ## Numbers -/

theorem bigEndian_succ (k x : Nat) : bigEndian (k + 1) x = bigEndian k (x / 256) ++ [UInt8.ofNat x] := by
  unfold bigEndian
  rw [List.range_succ, List.map_append, List.map_singleton]
  congr 1
  · apply List.map_congr_left
    intro i hi
    have hi := List.mem_range.1 hi
    rw [Nat.div_div_eq_div_mul, ← Nat.pow_succ']
    congr 3; omega
  · simp

theorem beBytes_eq (k x : Nat) : beBytes k x = bigEndian k x := by
  induction k generalizing x with
  | zero => rfl
  | succ k ih =>
    rw [beBytes, ih, bigEndian_succ]
    congr 2
    apply UInt8.toNat_inj.1
    simp

theorem varintLen_eq {x : Nat} (hx : x < 2 ^ 56) : varintLen x = some (x.log2 / 7 + 1) := by
  by_cases h0 : x = 0
  · subst h0; decide
  obtain ⟨L, hL⟩ := varintLen_isSome hx
  obtain ⟨h1, h2, h3, h4⟩ := varintLen_some hL
  rw [hL]
  congr 1
  have a : x.log2 < 7 * L := (Nat.log2_lt h0).2 h3
  by_cases hL1 : L = 1
  · omega
  · have b := (Nat.le_log2 h0).2 (h4 (by omega))
    omega

/-! ## Writing is putting the parts one after another -/

section
variable (E : Env) (H : Heap) (self : Nat → Ty → Val → WM Unit)

/-- writing a part -/
def runPart : BinPart → WM Unit
  | .bytes bs => emit bs
  | .value w t v => self w t v
  | .shared t a => sharedWrite a (match H a with | some v => self 0 t v | none => M.ub)
  | .throws e => M.throw e
  | .uninitialised => M.ub
  | .unsupported => M.stuck

def runParts : List BinPart → WM Unit
  | [] => pure ()
  | p :: ps => runPart H self p >>= fun _ => runParts ps

theorem runParts_append (ps qs : List BinPart) : runParts H self (ps ++ qs) = runParts H self ps >>= fun _ => runParts H self qs := by
  induction ps with
  | nil => rfl
  | cons p ps ih => rw [List.cons_append, runParts, runParts, ih, M.bind_assoc']

theorem runParts_one (p : BinPart) : runParts H self [p] = runPart H self p := M.bind_pure' _

theorem run_varUInt (x : Nat) : runPart H self (varUInt x) = writeVarint x := by
  unfold varUInt writeVarint
  split
  · rename_i h; rw [varintLen_eq h, runPart, ← beBytes_eq]
    simp only [Nat.add_comm x]
  · rename_i h; rw [varintLen_none.2 (Nat.le_of_not_lt h)]; rfl

theorem run_elems (t : Ty) (vs : List Val) : runParts H self (vs.map (.value 0 t)) = writeElems self t vs := by
  induction vs with
  | nil => rfl
  | cons v vs ih => rw [List.map_cons, runParts, writeElems, ih]; rfl

theorem run_entries (k t : Ty) (kvs : List (Val × Val)) :
    runParts H self (kvs.map fun e => .value 0 (.pair k t) (.tup [e.1, e.2])) = writeEntries self k t kvs := by
  induction kvs with
  | nil => rfl
  | cons v vs ih => rw [List.map_cons, runParts, writeEntries, ih]; rfl

theorem run_bases (w : Nat) (bs : List ClassId) (v : Val) :
    runParts H self (bs.map fun b => .value w (.cls b) v) = writeBases self w bs v := by
  induction bs with
  | nil => rfl
  | cons b bs ih => rw [List.map_cons, runParts, writeBases, ih]; rfl

theorem run_fields (w : Nat) (fs : List (Guard × Field)) (st : Store) :
    runParts H self ((fs.filter fun gf => gf.1.holds w).map fun gf => memberPart w st gf.2) = writeFields self w fs st := by
  induction fs with
  | nil => rfl
  | cons gf fs ih =>
    obtain ⟨g, f⟩ := gf
    rw [writeFields]
    by_cases hg : g.holds w = true
    · rw [List.filter_cons_of_pos (by simpa using hg), if_pos hg, List.map_cons, runParts, ih]
      unfold memberPart
      cases st.get? f.key <;> rfl
    · rw [List.filter_cons_of_neg (by simpa using hg), if_neg hg, ih]

theorem run_class (ci : ClassInfo) (w : Nat) (st : Store) : runParts H self (classParts ci w st) = writeClass self ci w st := by
  unfold classParts writeClass effVersion writeVersion effVersion
  simp only
  rw [runParts_append, runParts_append, run_bases, M.bind_assoc']
  congr 1; funext _
  cases hv : ci.bin.version with
  | none => simp only [Option.isSome_none, Bool.false_eq_true, ↓reduceIte]; rw [run_fields]; rfl
  | some d => simp only [Option.isSome_some, ↓reduceIte]; rw [run_fields, runParts_one, run_varUInt]

theorem bind_unit (m : WM Unit) : (m >>= fun _ => (pure () : WM Unit)) = m := M.bind_pure' m

theorem writeStep_eq (w : Nat) (t : Ty) (v : Val) : writeStep E H self w t v = runParts H self (contents E w t v) := by
  unfold writeStep contents
  split
  case h_3 => dsimp only; split <;> simp only [runParts_one, runPart, ← beBytes_eq, twosComplement, intBytes]
  case h_20 =>
    dsimp only
    split
    · rename_i h; simp only [h]; rfl
    · rename_i h; simp only [h]; rw [run_class]
  case h_19 =>
    dsimp only
    split
    · rename_i h; simp only [h]; rfl
    · rename_i h; simp only [h, ↓reduceIte]; rw [runParts_one]; rfl
    · rename_i t' ht h
      simp only [h]
      rw [if_neg ht]
      simp only [runParts, bind_unit]; rfl
  case h_6 =>
    dsimp only
    rw [runParts, run_varUInt, runParts_one]; rfl
  all_goals first
    | rfl
    | (simp only [runParts_one, runPart, ← beBytes_eq, twosComplement, intBytes]; done)
    | (dsimp only; rw [runParts, run_varUInt]; simp only [run_elems, run_entries]; done)
    | (simp only [runParts, runPart, bind_unit]; done)
    | (simp only [runParts, runPart, bind_unit]; rfl)

end

section
variable {E : Env} {H : Heap}

/-- what a computation does is the layout of parts -/
def LaysOut (E : Env) (H : Heap) (m : WM Unit) (qs : List BinPart) : Prop :=
  ∀ s, match m s with
    | .ok _ s' => ∃ d, s'.out = s.out ++ d ∧ ∀ ps out r, Layout E H ps s'.seen out r → Layout E H (qs ++ ps) s.seen (d ++ out) r
    | .exc e s' => ∃ d, s'.out = s.out ++ d ∧ ∀ ps, Layout E H (qs ++ ps) s.seen d (.thrown e)
    | .ub => ∃ d, ∀ ps, Layout E H (qs ++ ps) s.seen d .undefined
    | _ => True

theorem LaysOut.nil : LaysOut E H (pure ()) [] := fun s => ⟨[], by simp, fun _ _ _ h => h⟩

theorem LaysOut.bind {m m' : WM Unit} {qs qs' : List BinPart} (h : LaysOut E H m qs) (h' : LaysOut E H m' qs') :
    LaysOut E H (m >>= fun _ => m') (qs ++ qs') := by
  intro s
  have h1 := h s
  rw [M.bind_apply]
  cases hr : m s with
  | ok a s1 =>
    rw [hr] at h1
    obtain ⟨d, e1, h1⟩ := h1
    have h2 := h' s1
    dsimp only
    cases hr2 : m' s1 with
    | ok b s2 =>
      rw [hr2] at h2
      obtain ⟨d2, e2, h2⟩ := h2
      refine ⟨d ++ d2, by rw [e2, e1, List.append_assoc], fun ps out r hl => ?_⟩
      rw [List.append_assoc, List.append_assoc]
      exact h1 _ _ _ (h2 _ _ _ hl)
    | exc e s2 =>
      rw [hr2] at h2
      obtain ⟨d2, e2, h2⟩ := h2
      refine ⟨d ++ d2, by rw [e2, e1, List.append_assoc], fun ps => ?_⟩
      rw [List.append_assoc]
      exact h1 _ _ _ (h2 _)
    | ub =>
      rw [hr2] at h2
      obtain ⟨d2, h2⟩ := h2
      refine ⟨d ++ d2, fun ps => ?_⟩
      rw [List.append_assoc]
      exact h1 _ _ _ (h2 _)
    | stuck => trivial
    | fuel => trivial
  | exc e s1 =>
    rw [hr] at h1
    obtain ⟨d, e1, h1⟩ := h1
    exact ⟨d, e1, fun ps => by rw [List.append_assoc]; exact h1 _⟩
  | ub =>
    rw [hr] at h1
    obtain ⟨d, h1⟩ := h1
    exact ⟨d, fun ps => by rw [List.append_assoc]; exact h1 _⟩
  | stuck => trivial
  | fuel => trivial

theorem writeId_eq (a : Nat) : writeId a = emit (idBytes a) := by
  unfold writeId idBytes bigId
  by_cases h : a < 2 ^ 55
  · rw [if_neg (by simpa using h), if_pos h, writeVarint, varintLen_eq (h.trans (by decide))]
    simp only [beBytes_eq, Nat.add_comm a]
  · rw [if_pos (by simpa using h), if_neg h, beBytes_eq]

theorem modeByte (a : Nat) (written : Bool) : UInt8.ofNat (sptrMode written (bigId a)) =
    if written then (if a < 2 ^ 55 then 2 else 6) else (if a < 2 ^ 55 then 1 else 5) := by
  by_cases h : a < 2 ^ 55
  · rw [if_pos h, if_pos h, show bigId a = false from decide_eq_false (Nat.not_le_of_lt h)]
    cases written <;> rfl
  · rw [if_neg h, if_neg h, show bigId a = true from decide_eq_true (Nat.le_of_not_lt h)]
    cases written <;> rfl

theorem sharedWrite_apply (a : Nat) (body : WM Unit) (s : WSt) : sharedWrite a body s =
    if a ∈ s.seen then .ok () { s with out := s.out ++ ([if a < 2 ^ 55 then 2 else 6] ++ idBytes a) }
    else body ⟨s.out ++ ([if a < 2 ^ 55 then 1 else 5] ++ idBytes a), a :: s.seen⟩ := by
  unfold sharedWrite
  rw [M.bind_apply]
  simp only [alreadyWritten, M.bind_apply, writeByte, modeByte, emit, M.modify_apply, writeId_eq]
  by_cases hs : a ∈ s.seen
  · simp only [hs, decide_true, ↓reduceIte, List.append_assoc]; rfl
  · simp only [hs, decide_false, ↓reduceIte, Bool.false_eq_true, M.bind_apply, markWritten, M.modify_apply, List.append_assoc]

theorem LaysOut.shared {t : Ty} {a : Nat} {self : Nat → Ty → Val → WM Unit} (hs : ∀ w t v, LaysOut E H (self w t v) [.value w t v]) :
    LaysOut E H (sharedWrite a (match H a with | some v => self 0 t v | none => M.ub)) [.shared t a] := by
  intro s
  rw [sharedWrite_apply]
  by_cases ha : a ∈ s.seen
  · rw [if_pos ha]
    exact ⟨_, rfl, fun ps out r h => .again ha h⟩
  · rw [if_neg ha]
    cases hv : H a with
    | none => exact ⟨_, fun ps => .dangling ha hv⟩
    | some v =>
      have := hs 0 t v ⟨s.out ++ ([if a < 2 ^ 55 then 1 else 5] ++ idBytes a), a :: s.seen⟩
      dsimp only
      cases hr : self 0 t v ⟨s.out ++ ([if a < 2 ^ 55 then 1 else 5] ++ idBytes a), a :: s.seen⟩ with
      | ok u s' =>
        rw [hr] at this
        obtain ⟨d, e, h⟩ := this
        refine ⟨[if a < 2 ^ 55 then 1 else 5] ++ idBytes a ++ d, by rw [e]; simp only [List.append_assoc], fun ps out r hl => ?_⟩
        rw [List.append_assoc]
        exact .first ha hv (h ps out r hl)
      | exc e' s' =>
        rw [hr] at this
        obtain ⟨d, e, h⟩ := this
        exact ⟨[if a < 2 ^ 55 then 1 else 5] ++ idBytes a ++ d, by rw [e]; simp only [List.append_assoc], fun ps => .first ha hv (h ps)⟩
      | ub =>
        rw [hr] at this
        obtain ⟨d, h⟩ := this
        exact ⟨_, fun ps => .first ha hv (h ps)⟩
      | stuck => trivial
      | fuel => trivial

theorem LaysOut.parts {self : Nat → Ty → Val → WM Unit} (hs : ∀ w t v, LaysOut E H (self w t v) [.value w t v]) (ps : List BinPart) :
    LaysOut E H (runParts H self ps) ps := by
  induction ps with
  | nil => exact .nil
  | cons p ps ih =>
    refine LaysOut.bind (qs := [p]) ?_ ih
    cases p with
    | bytes bs => exact fun s => ⟨bs, rfl, fun _ _ _ h => .bytes h⟩
    | value w t v => exact hs w t v
    | shared t a => exact .shared hs
    | throws e => exact fun s => ⟨[], by simp, fun _ => .throws⟩
    | uninitialised => exact fun s => ⟨[], fun _ => .uninitialised⟩
    | unsupported => exact fun s => trivial

theorem LaysOut.write (n w : Nat) (t : Ty) (v : Val) : LaysOut E H (write E H n w t v) [.value w t v] := by
  induction n generalizing w t v with
  | zero => exact fun s => trivial
  | succ n ih =>
    intro s
    have := LaysOut.parts (fun w t v => ih w t v) (contents E w t v) s
    rw [← writeStep_eq] at this
    rw [Verif.write]
    revert this
    cases writeStep E H (Verif.write E H n) w t v s with
    | ok a s' => exact fun ⟨d, e, h⟩ => ⟨d, e, fun ps out r hl => .value (h ps out r hl)⟩
    | exc e s' => exact fun ⟨d, e, h⟩ => ⟨d, e, fun ps => .value (h ps)⟩
    | ub => exact fun ⟨d, h⟩ => ⟨d, fun ps => .value (h ps)⟩
    | stuck => exact fun _ => trivial
    | fuel => exact fun _ => trivial

/-- the outcome of a computation from state `s` is as specified by a layout -/
def Outcome (r : Ending) (bs : Str) (s : WSt) (res : Res BExc WSt Unit) : Prop :=
  match r with
  | .written seen => res = .ok () ⟨s.out ++ bs, seen⟩
  | .thrown e => ∃ seen, res = .exc e ⟨s.out ++ bs, seen⟩
  | .undefined => res = .ub

theorem Outcome.ne_fuel {r bs s res} (h : Outcome r bs s res) : res ≠ .fuel := by
  rintro rfl
  cases r <;> simp [Outcome] at h

theorem Outcome.shift {r bs pre out0 seen seen' res} (h : Outcome r bs ⟨out0 ++ pre, seen⟩ res) :
    Outcome r (pre ++ bs) ⟨out0, seen'⟩ res := by
  cases r <;> simpa only [Outcome, List.append_assoc] using h

theorem runParts_le {n m : Nat} (hnm : n ≤ m) (ps : List BinPart) : Le Unit (runParts H (write E H n) ps) (runParts H (write E H m) ps) := by
  induction ps with
  | nil => exact rel2_le.pure _
  | cons p ps ih =>
    refine rel2_le.bind _ _ _ _ ?_ fun _ => ih
    cases p with
    | value w t v => exact write_le E H hnm w t v
    | shared t a =>
      intro s
      simp only [runPart, sharedWrite_apply]
      split
      · exact .inr rfl
      · cases H a with
        | none => exact .inr rfl
        | some v => exact write_le E H hnm 0 t v _
    | _ => exact fun _ => .inr rfl

theorem run_of_layout {ps : List BinPart} {seen : List Nat} {bs : Str} {r : Ending} (h : Layout E H ps seen bs r) :
    ∃ n, ∀ out0, Outcome r bs ⟨out0, seen⟩ (runParts H (write E H n) ps ⟨out0, seen⟩) := by
  induction h with
  | done => exact ⟨0, fun out0 => by simp only [Outcome, List.append_nil]; rfl⟩
  | bytes _ ih =>
    obtain ⟨n, ih⟩ := ih
    exact ⟨n, fun out0 => (ih _).shift⟩
  | @value w t v ps seen out r _ ih =>
    obtain ⟨n, ih⟩ := ih
    refine ⟨n + 1, fun out0 => ?_⟩
    have h1 := ih out0
    rw [runParts_append, ← writeStep_eq] at h1
    have h2 : Le Unit (writeStep E H (write E H n) w t v >>= fun _ => runParts H (write E H n) ps)
        (writeStep E H (write E H n) w t v >>= fun _ => runParts H (write E H (n + 1)) ps) :=
      rel2_le.bind _ _ _ _ (fun _ => .inr rfl) fun _ => runParts_le (Nat.le_succ n) ps
    have h3 := (h2 ⟨out0, seen⟩).resolve_left h1.ne_fuel
    rw [h3] at h1
    exact h1
  | @first t a v ps seen out r ha hv _ ih =>
    obtain ⟨n, ih⟩ := ih
    refine ⟨n, fun out0 => ?_⟩
    have := (ih (out0 ++ ([if a < 2 ^ 55 then 1 else 5] ++ idBytes a))).shift (seen' := seen)
    rw [runParts] at this ⊢
    simp only [M.bind_apply, runPart, sharedWrite_apply, ha, if_false, hv] at this ⊢
    exact this
  | @again t a ps seen out r ha _ ih =>
    obtain ⟨n, ih⟩ := ih
    refine ⟨n, fun out0 => ?_⟩
    have := (ih (out0 ++ ([if a < 2 ^ 55 then 2 else 6] ++ idBytes a))).shift (seen' := seen)
    rw [runParts]
    simp only [M.bind_apply, runPart, sharedWrite_apply, ha, if_true] at this ⊢
    exact this
  | throws => exact ⟨0, fun out0 => ⟨_, by rw [List.append_nil]; rfl⟩⟩
  | uninitialised => exact ⟨0, fun out0 => rfl⟩
  | @dangling t a ps seen ha hv =>
    refine ⟨0, fun out0 => ?_⟩
    rw [runParts]
    simp only [M.bind_apply, runPart, sharedWrite_apply, ha, if_false, hv]
    rfl

theorem write_of_layout {w : Nat} {t : Ty} {v : Val} {s : WSt} {bs : Str} {r : Ending} (h : Layout E H [.value w t v] s.seen bs r) :
    ∃ n, Outcome r bs s (write E H n w t v s) := by
  obtain ⟨n, h⟩ := run_of_layout h
  have := h s.out
  rw [runParts_one] at this
  exact ⟨n, this⟩

end

/-! ## The theorems -/

/-- **C60**: an object is written as its binary representation. -/
theorem C60_binary_form (E : Env) (H : Heap) (version : Nat) (t : Ty) (v : Val) (out : Str) (seen seen' : List Nat) (bytes : Str) :
    (∃ n, write E H n version t v ⟨out, seen⟩ = .ok () ⟨out ++ bytes, seen'⟩) ↔
      Layout E H [.value version t v] seen bytes (.written seen') := by
  constructor
  · rintro ⟨n, h⟩
    have := LaysOut.write (E := E) (H := H) n version t v ⟨out, seen⟩
    rw [h] at this
    obtain ⟨d, e, hl⟩ := this
    rw [List.append_cancel_left e]
    have := hl [] [] _ (.done seen')
    simpa only [List.append_nil] using this
  · exact fun h => write_of_layout (s := ⟨out, seen⟩) h

/-- **C60**: nothing else is written, i.e. whenever writing ends regularly bytes are appended. -/
theorem C60_only_appends (E : Env) (H : Heap) (n version : Nat) (t : Ty) (v : Val) (s s' : WSt) (h : write E H n version t v s = .ok () s') :
    ∃ bytes, s'.out = s.out ++ bytes := by
  have := LaysOut.write (E := E) (H := H) n version t v s
  rw [h] at this
  exact ⟨_, this.choose_spec.1⟩

/-- **C60**: writing throws the exception `e` after having written `bytes` iff the representation comes to something which can
not be represented after these bytes: a length or version of at least 2^56 or a valueless variant. -/
theorem C60_exceptions (E : Env) (H : Heap) (version : Nat) (t : Ty) (v : Val) (out : Str) (seen : List Nat) (bytes : Str) (e : BExc) :
    (∃ n s', write E H n version t v ⟨out, seen⟩ = .exc e s' ∧ s'.out = out ++ bytes) ↔
      Layout E H [.value version t v] seen bytes (.thrown e) := by
  constructor
  · rintro ⟨n, s', h, he⟩
    have := LaysOut.write (E := E) (H := H) n version t v ⟨out, seen⟩
    rw [h] at this
    obtain ⟨d, e', hl⟩ := this
    rw [he] at e'
    rw [List.append_cancel_left e']
    exact hl []
  · intro h
    obtain ⟨n, seen', h⟩ := write_of_layout (s := ⟨out, seen⟩) h
    exact ⟨n, _, h, rfl⟩

/-- **C60**: writing has undefined behaviour iff the representation comes to an uninitialised scalar or a dangling pointer. -/
theorem C60_undefined (E : Env) (H : Heap) (version : Nat) (t : Ty) (v : Val) (out : Str) (seen : List Nat) :
    (∃ n, write E H n version t v ⟨out, seen⟩ = .ub) ↔ ∃ bytes, Layout E H [.value version t v] seen bytes .undefined := by
  constructor
  · rintro ⟨n, h⟩
    have := LaysOut.write (E := E) (H := H) n version t v ⟨out, seen⟩
    rw [h] at this
    obtain ⟨d, hl⟩ := this
    exact ⟨d, hl []⟩
  · rintro ⟨bytes, h⟩
    exact write_of_layout (s := ⟨out, seen⟩) h

/-- **C60**: there is one representation. -/
theorem C60_unique (E : Env) (H : Heap) (ps : List BinPart) (seen : List Nat) (bytes bytes' : Str) (r r' : Ending)
    (h : Layout E H ps seen bytes r) (h' : Layout E H ps seen bytes' r') : bytes = bytes' ∧ r = r' := by
  induction h generalizing bytes' with
  | done => cases h'; exact ⟨rfl, rfl⟩
  | bytes _ ih => cases h' with | bytes h' => obtain ⟨rfl, rfl⟩ := ih _ h'; exact ⟨rfl, rfl⟩
  | value _ ih => cases h' with | value h' => exact ih _ h'
  | first ha hv _ ih =>
    cases h' with
    | first _ hv' h' => rw [hv] at hv'; cases hv'; obtain ⟨rfl, rfl⟩ := ih _ h'; exact ⟨rfl, rfl⟩
    | again ha' _ => exact absurd ha' ha
    | dangling _ hv' => rw [hv] at hv'; cases hv'
  | again ha _ ih =>
    cases h' with
    | first ha' _ _ => exact absurd ha ha'
    | again _ h' => obtain ⟨rfl, rfl⟩ := ih _ h'; exact ⟨rfl, rfl⟩
    | dangling ha' _ => exact absurd ha ha'
  | throws => cases h'; exact ⟨rfl, rfl⟩
  | uninitialised => cases h'; exact ⟨rfl, rfl⟩
  | dangling ha hv =>
    cases h' with
    | first _ hv' _ => rw [hv] at hv'; cases hv'
    | again ha' _ => exact absurd ha' ha
    | dangling _ _ => exact ⟨rfl, rfl⟩

/-! ## Valid objects -/

/-- parts of valid objects -/
def PartOk (E : Env) (HT : Nat → Option Ty) (strict : Bool) : BinPart → Prop
  | .bytes _ => True
  | .value w t v => (strict = true → w < 2 ^ 56) ∧ Writable E HT strict t v
  | .shared t a => HT a = some t
  | .throws e => strict = false ∧ (e = .conv ∨ e = .badVariant)
  | .uninitialised => strict = false
  | .unsupported => False

section
variable {E : Env} {H : Heap} {HT : Nat → Option Ty} {strict : Bool}

theorem varUInt_ok {x : Nat} (h : strict = true → x < 2 ^ 56) : PartOk E HT strict (varUInt x) := by
  unfold varUInt
  split
  · trivial
  · rename_i hx
    cases strict with
    | false => exact ⟨rfl, .inl rfl⟩
    | true => exact absurd (h rfl) hx

theorem classParts_ok {c : ClassId} {ci : ClassInfo} {st : Store} {w : Nat} {g : Field → Val} (hc : E.cls c = some ci)
    (hw : strict = true → w < 2 ^ 56)
    (h1 : ∀ d, HasWrittenClass E c d → ∃ ci, E.cls d = some ci ∧ (strict = true → ∀ m, ci.bin.version = some m → m < 2 ^ 56))
    (h2 : ∀ f, HasWrittenField E c f → st.get? f.key = some (g f))
    (h3 : ∀ f, HasWrittenField E c f → Writable E HT strict f.ty (g f)) : ∀ p ∈ classParts ci w st, PartOk E HT strict p := by
  have hv : strict = true → ∀ m, ci.bin.version = some m → m < 2 ^ 56 := by
    obtain ⟨ci', h, h'⟩ := h1 c (.self c)
    rw [hc] at h; cases h; exact h'
  have ho : strict = true → (match ci.bin.version with | none => w | some d => if w = 0 then d else w) < 2 ^ 56 := by
    intro hs
    split
    · exact hw hs
    · rename_i d hd
      split
      · exact hv hs d hd
      · exact hw hs
  intro p hp
  unfold classParts at hp
  simp only [List.mem_append, List.mem_map] at hp
  rcases hp with (⟨b, hb, rfl⟩ | hp) | ⟨gf, hf, rfl⟩
  · exact ⟨hw, .cls g (fun d hd => h1 d (.base hc hb hd)) (fun f hf => h2 f (.base hc hb hf)) fun f hf => h3 f (.base hc hb hf)⟩
  · split at hp
    · rw [List.mem_singleton] at hp; subst hp; exact varUInt_ok ho
    · cases hp
  · have hf' : HasWrittenField E c gf.2 := .own (g := gf.1) hc (List.mem_filter.1 hf).1
    unfold memberPart
    rw [h2 _ hf']
    exact ⟨ho, h3 _ hf'⟩

theorem contents_ok {w : Nat} {t : Ty} {v : Val} (hw : strict = true → w < 2 ^ 56) (h : Writable E HT strict t v) :
    ∀ p ∈ contents E w t v, PartOk E HT strict p := by
  have h0 : strict = true → 0 < 2 ^ 56 := fun _ => by decide
  intro p hp
  cases h with
  | noBool h => simp only [contents, List.mem_singleton] at hp; subst hp; exact h
  | noInt _ h => simp only [contents, List.mem_singleton] at hp; subst hp; exact h
  | noF32 h => simp only [contents, List.mem_singleton] at hp; subst hp; exact h
  | noF64 h => simp only [contents, List.mem_singleton] at hp; subst hp; exact h
  | noEnum _ h => simp only [contents, List.mem_singleton] at hp; subst hp; exact h
  | bool => simp only [contents, List.mem_singleton] at hp; subst hp; trivial
  | int it i h => simp only [contents, if_neg h, List.mem_singleton] at hp; subst hp; trivial
  | f32 => simp only [contents, List.mem_singleton] at hp; subst hp; trivial
  | f64 => simp only [contents, List.mem_singleton] at hp; subst hp; trivial
  | enum u i h => simp only [contents, List.mem_singleton] at hp; subst hp; exact ⟨h0, .int _ _ h⟩
  | str s h =>
    simp only [contents, List.mem_cons, List.not_mem_nil, or_false] at hp
    rcases hp with rfl | rfl
    · exact varUInt_ok h
    · trivial
  | dateTime => simp only [contents, List.mem_singleton] at hp; subst hp; trivial
  | timeSpan => simp only [contents, List.mem_singleton] at hp; subst hp; trivial
  | optNone => simp only [contents, List.mem_singleton] at hp; subst hp; trivial
  | uptrNone => simp only [contents, List.mem_singleton] at hp; subst hp; trivial
  | sptrNone => simp only [contents, List.mem_singleton] at hp; subst hp; trivial
  | optSome h =>
    simp only [contents, List.mem_cons, List.not_mem_nil, or_false] at hp
    rcases hp with rfl | rfl
    · trivial
    · exact ⟨h0, h⟩
  | uptrSome h =>
    simp only [contents, List.mem_cons, List.not_mem_nil, or_false] at hp
    rcases hp with rfl | rfl
    · trivial
    · exact ⟨h0, h⟩
  | sptrSome h => simp only [contents, List.mem_singleton] at hp; subst hp; exact h
  | vec hl h =>
    simp only [contents, List.mem_cons, List.mem_map] at hp
    rcases hp with rfl | ⟨v, hv, rfl⟩
    · exact varUInt_ok hl
    · exact ⟨h0, h v hv⟩
  | set hl hi h =>
    simp only [contents, List.mem_cons, List.mem_map] at hp
    rcases hp with rfl | ⟨v, hv, rfl⟩
    · exact varUInt_ok hl
    · exact ⟨h0, h v (hi ▸ hv)⟩
  | map hl hi h h' =>
    simp only [contents, List.mem_cons, List.mem_map] at hp
    rcases hp with rfl | ⟨v, hv, rfl⟩
    · exact varUInt_ok hl
    · exact ⟨h0, .pair (h v (hi ▸ hv)) (h' v (hi ▸ hv))⟩
  | pair h h' =>
    simp only [contents, List.mem_cons, List.not_mem_nil, or_false] at hp
    rcases hp with rfl | rfl
    · exact ⟨h0, h⟩
    · exact ⟨h0, h'⟩
  | valueless ts h =>
    simp only [contents, List.mem_cons, List.not_mem_nil, or_false] at hp
    rcases hp with rfl | rfl
    · trivial
    · exact ⟨h, .inr rfl⟩
  | mono h =>
    simp only [contents, h, ↓reduceIte, List.mem_cons, List.not_mem_nil, or_false] at hp
    subst hp; trivial
  | variant h hm h' =>
    simp only [contents, h, if_neg hm, List.mem_cons, List.not_mem_nil, or_false] at hp
    rcases hp with rfl | rfl
    · trivial
    · exact ⟨h0, h'⟩
  | @cls c st g h1 h2 h3 =>
    obtain ⟨ci, hc, -⟩ := h1 _ (.self _)
    simp only [contents, hc] at hp
    exact classParts_ok hc hw h1 h2 h3 p hp

theorem not_stuck (hH : ∀ a t, HT a = some t → ∃ x, H a = some x ∧ Writable E HT strict t x) (n : Nat) :
    ∀ ps, (∀ p ∈ ps, PartOk E HT strict p) → ∀ s, runParts H (write E H n) ps s ≠ .stuck := by
  induction n with
  | zero =>
    intro ps hps
    induction ps with
    | nil => intro s; simp [runParts]
    | cons p ps ih =>
      intro s hs
      rw [runParts, M.bind_eq_stuck] at hs
      have hp := hps p List.mem_cons_self
      rcases hs with hs | ⟨a, s', hs', hs⟩
      · cases p with
        | unsupported => exact hp
        | shared t a =>
          obtain ⟨x, hx, -⟩ := hH a t hp
          simp only [runPart, sharedWrite_apply, hx] at hs
          split at hs
          · cases hs
          · cases hs
        | _ => cases hs
      · exact ih (fun p hp => hps p (List.mem_cons_of_mem _ hp)) s' hs
  | succ n ihn =>
    have hself : ∀ w t v, (strict = true → w < 2 ^ 56) → Writable E HT strict t v → ∀ s, write E H (n + 1) w t v s ≠ .stuck := by
      intro w t v hw hv s
      rw [write, writeStep_eq]
      exact ihn _ (contents_ok hw hv) s
    intro ps hps
    induction ps with
    | nil => intro s; simp [runParts]
    | cons p ps ih =>
      intro s hs
      rw [runParts, M.bind_eq_stuck] at hs
      have hp := hps p List.mem_cons_self
      rcases hs with hs | ⟨a, s', hs', hs⟩
      · cases p with
        | unsupported => exact hp
        | value w t v => exact hself w t v hp.1 hp.2 s hs
        | shared t a =>
          obtain ⟨x, hx, hx'⟩ := hH a t hp
          simp only [runPart, sharedWrite_apply, hx] at hs
          split at hs
          · cases hs
          · exact hself 0 t x (fun _ => by decide) hx' _ hs
        | _ => cases hs
      · exact ih (fun p hp => hps p (List.mem_cons_of_mem _ hp)) s' hs

theorem ending_ok (hH : ∀ a t, HT a = some t → ∃ x, H a = some x ∧ Writable E HT strict t x) {ps : List BinPart} {seen : List Nat} {bs : Str}
    {r : Ending} (h : Layout E H ps seen bs r) (hps : ∀ p ∈ ps, PartOk E HT strict p) :
    (∃ seen', r = .written seen') ∨ strict = false ∧ (r = .thrown .conv ∨ r = .thrown .badVariant ∨ r = .undefined) := by
  induction h with
  | done seen => exact .inl ⟨seen, rfl⟩
  | bytes _ ih => exact ih fun p hp => hps p (List.mem_cons_of_mem _ hp)
  | value _ ih =>
    refine ih fun p hp => ?_
    rcases List.mem_append.1 hp with hp | hp
    · have := hps _ List.mem_cons_self
      exact contents_ok this.1 this.2 p hp
    · exact hps p (List.mem_cons_of_mem _ hp)
  | first ha hv _ ih =>
    refine ih fun p hp => ?_
    rcases List.mem_cons.1 hp with rfl | hp
    · obtain ⟨x, hx, hx'⟩ := hH _ _ (hps _ List.mem_cons_self)
      rw [hv] at hx; cases hx
      exact ⟨fun _ => by decide, hx'⟩
    · exact hps p (List.mem_cons_of_mem _ hp)
  | again _ _ ih => exact ih fun p hp => hps p (List.mem_cons_of_mem _ hp)
  | throws =>
    obtain ⟨h1, h2 | h2⟩ := hps _ List.mem_cons_self
    · exact .inr ⟨h1, .inl (by rw [h2])⟩
    · exact .inr ⟨h1, .inr (.inl (by rw [h2]))⟩
  | uninitialised => exact .inr ⟨hps _ List.mem_cons_self, .inr (.inr rfl)⟩
  | dangling ha hv =>
    obtain ⟨x, hx, -⟩ := hH _ _ (hps _ List.mem_cons_self)
    rw [hv] at hx; cases hx

end

theorem layout_exists {E : Env} {H : Heap} {HT : Nat → Option Ty} {strict : Bool} (rk : ClassId → Nat)
    (hrk : ∀ c ci, E.cls c = some ci → ∀ b ∈ ci.bin.bases, rk b < rk c)
    (hit : ∀ vs, ∀ v ∈ E.iter vs, v ∈ vs) (hitkv : ∀ kvs, ∀ q ∈ E.iterKV kvs, q ∈ kvs)
    (dom : List Nat) (hdom : ∀ a v, H a = some v → a ∈ dom)
    (hH : ∀ a t, HT a = some t → ∃ x, H a = some x ∧ Writable E HT strict t x)
    (version : Nat) (hver : strict = true → version < 2 ^ 56) (t : Ty) (v : Val) (hv : Writable E HT strict t v) (seen : List Nat) :
    ∃ bytes r, Layout E H [.value version t v] seen bytes r := by
  obtain ⟨N, hN⟩ := write_conv hrk hit hitkv hdom version t v ⟨[], seen⟩
  have h1 := hN N (Nat.le_refl _)
  have h2 := not_stuck hH N [.value version t v] (by intro p hp; rw [List.mem_singleton] at hp; subst hp; exact ⟨hver, hv⟩) ⟨[], seen⟩
  rw [runParts_one] at h2
  have h3 := LaysOut.write (E := E) (H := H) N version t v ⟨[], seen⟩
  revert h1 h2 h3
  simp only [runPart]
  cases write E H N version t v ⟨[], seen⟩ with
  | ok a s => exact fun _ _ ⟨d, _, h⟩ => ⟨_, _, h [] [] _ (.done _)⟩
  | exc e s => exact fun _ _ ⟨d, _, h⟩ => ⟨_, _, h []⟩
  | ub => exact fun _ _ ⟨d, h⟩ => ⟨_, _, h []⟩
  | stuck => exact fun _ h => absurd rfl h
  | fuel => exact fun h => absurd rfl h

/-- **C60**: the outcomes of writing a valid object are: it is written, a `ConversionException` (a length or version of at least
2^56), a `std::bad_variant_access` (a valueless variant) or undefined behaviour (an uninitialised scalar). -/
theorem C60_outcomes (E : Env) (H : Heap) (HT : Nat → Option Ty) (rk : ClassId → Nat)
    (hrk : ∀ c ci, E.cls c = some ci → ∀ b ∈ ci.bin.bases, rk b < rk c)
    (hit : ∀ vs, ∀ v ∈ E.iter vs, v ∈ vs) (hitkv : ∀ kvs, ∀ q ∈ E.iterKV kvs, q ∈ kvs)
    (dom : List Nat) (hdom : ∀ a v, H a = some v → a ∈ dom)
    (hH : ∀ a t, HT a = some t → ∃ x, H a = some x ∧ Writable E HT false t x)
    (version : Nat) (t : Ty) (v : Val) (hv : Writable E HT false t v) (seen : List Nat) :
    ∃ bytes r, Layout E H [.value version t v] seen bytes r ∧
      ((∃ seen', r = .written seen') ∨ r = .thrown .conv ∨ r = .thrown .badVariant ∨ r = .undefined) := by
  obtain ⟨bytes, r, h⟩ := layout_exists rk hrk hit hitkv dom hdom hH version (fun h => by cases h) t v hv seen
  refine ⟨bytes, r, h, ?_⟩
  rcases ending_ok hH h (by intro p hp; rw [List.mem_singleton] at hp; subst hp; exact ⟨fun h => (by cases h), hv⟩) with h | ⟨-, h⟩
  · exact .inl h
  · exact .inr h

/-- **C60**: writing a valid object succeeds if all lengths and versions are below 2^56, no variant is valueless and all scalars
are initialised. -/
theorem C60_success (E : Env) (H : Heap) (HT : Nat → Option Ty) (rk : ClassId → Nat)
    (hrk : ∀ c ci, E.cls c = some ci → ∀ b ∈ ci.bin.bases, rk b < rk c)
    (hit : ∀ vs, ∀ v ∈ E.iter vs, v ∈ vs) (hitkv : ∀ kvs, ∀ q ∈ E.iterKV kvs, q ∈ kvs)
    (dom : List Nat) (hdom : ∀ a v, H a = some v → a ∈ dom)
    (hH : ∀ a t, HT a = some t → ∃ x, H a = some x ∧ Writable E HT true t x)
    (version : Nat) (hver : version < 2 ^ 56) (t : Ty) (v : Val) (hv : Writable E HT true t v) (s : WSt) :
    ∃ n s', write E H n version t v s = .ok () s' := by
  obtain ⟨bytes, r, h⟩ := layout_exists rk hrk hit hitkv dom hdom hH version (fun _ => hver) t v hv s.seen
  rcases ending_ok hH h (by intro p hp; rw [List.mem_singleton] at hp; subst hp; exact ⟨fun _ => hver, hv⟩) with ⟨seen', rfl⟩ | ⟨h', -⟩
  · obtain ⟨n, h⟩ := write_of_layout h
    exact ⟨n, _, h⟩
  · cases h'

/-! ## Examples -/

/-- a ring of two nodes, one with a big address -/
def Demo.ring : Heap := fun a =>
  if a = 1000 then some (.obj [(Demo.fV.key, .int 1), (Demo.fN.key, .ref (2 ^ 63))])
  else if a = 2 ^ 63 then some (.obj [(Demo.fV.key, .int (-2)), (Demo.fN.key, .ref 1000)])
  else none

/-- the bytes of the ring: new object, address 1000 (two bytes), `v`, new object with big address, `v`, back-reference -/
example : Layout Demo.env Demo.ring [.value 0 (.sptr (.cls 2)) (.ref 1000)] []
    [1, 0x43, 0xe8, 0, 0, 0, 1, 5, 0x80, 0, 0, 0, 0, 0, 0, 0, 0xff, 0xff, 0xff, 0xfe, 2, 0x43, 0xe8] (.written [2 ^ 63, 1000]) :=
  (C60_binary_form _ _ 0 _ _ [] [] _ _).1 ⟨20, rfl⟩

/-- a class with a base and a version (written between the base's and the own members) -/
example : Layout Demo.env (fun _ => none) [.value 0 (.cls 1) (.obj [(Demo.fI.key, .int 258), (Demo.fM.key, .map [(.str (lit "k"), .int 5)]),
      (Demo.fS.key, .list [.str (lit "x")]), (Demo.fK.key, .int 7)])] []
    [0, 0, 1, 2, 0x81, 0x81, 0x6b, 0, 0, 0, 5, 0x83, 0x81, 0x81, 0x78] (.written []) :=
  (C60_binary_form _ _ 0 _ _ [] [] _ _).1 ⟨20, rfl⟩

/-- a valueless variant -/
example : Layout Demo.env (fun _ => none) [.value 0 (.vec (.variant [.mono, .str])) (.list [.alt 1 (.str (lit "ab")), .alt 0 .mono, .valueless])] []
    [0x83, 1, 0x82, 0x61, 0x62, 0, 0xff] (.thrown .badVariant) :=
  (C60_exceptions _ _ 0 _ _ [] [] _ _).1 ⟨20, _, rfl, rfl⟩

/-- an uninitialised member -/
example : ∃ bytes, Layout Demo.env (fun _ => none) [.value 0 (.cls 2) (.obj [(Demo.fV.key, .indet), (Demo.fN.key, .null)])] [] bytes .undefined :=
  (C60_undefined _ _ 0 _ _ [] []).1 ⟨20, rfl⟩

theorem demo_node_writable (HT : Nat → Option Ty) (i : Int) (a : Nat) (ha : HT a = some (.cls 2)) :
    Writable Demo.env HT true (.cls 2) (.obj [(Demo.fV.key, .int i), (Demo.fN.key, .ref a)]) := by
  have hf : ∀ f, HasWrittenField Demo.env 2 f → f = Demo.fV ∨ f = Demo.fN := by
    intro f hf
    cases hf with
    | own hc hm =>
      cases hc
      simp only [Demo.node, List.mem_cons, Prod.mk.injEq, List.not_mem_nil, or_false] at hm
      rcases hm with ⟨-, rfl⟩ | ⟨-, rfl⟩ <;> simp
    | base hc hb _ => cases hc; cases hb
  refine .cls (fun f => if f.key = Demo.fV.key then .int i else .ref a) ?_ ?_ ?_
  · intro d hd
    cases hd with
    | self => exact ⟨_, rfl, fun _ m hm => by cases hm⟩
    | base hc hb _ => cases hc; cases hb
  · intro f h
    rcases hf f h with rfl | rfl <;> rfl
  · intro f h
    rcases hf f h with rfl | rfl
    · exact .int _ _ (by decide)
    · exact .sptrSome ha

/-- the ring can be written, from any state -/
example (s : WSt) : ∃ n s', write Demo.env Demo.ring n 0 (.sptr (.cls 2)) (.ref 1000) s = .ok () s' := by
  have hHT : ∀ a t, (if a = 1000 ∨ a = 2 ^ 63 then some (Ty.cls 2) else none) = some t → (a = 1000 ∨ a = 2 ^ 63) ∧ t = .cls 2 := by
    intro a t h
    split at h
    · rename_i h'; cases h; exact ⟨h', rfl⟩
    · cases h
  refine C60_success Demo.env Demo.ring (fun a => if a = 1000 ∨ a = 2 ^ 63 then some (.cls 2) else none) id ?_
    (fun vs v hv => by simpa [Demo.env] using hv) (fun vs v hv => by simpa [Demo.env] using hv) [1000, 2 ^ 63] ?_ ?_ 0 (by decide) _ _
    (.sptrSome (by simp)) s
  · intro c ci h
    match c, h with
    | 0, h => cases h; intro b hb; cases hb
    | 1, h => cases h; intro b hb; cases hb with | head => decide | tail _ h => cases h
    | 2, h => cases h; intro b hb; cases hb
  · intro a v h
    unfold Demo.ring at h
    split at h
    · rename_i h'; exact List.mem_cons.2 (.inl h')
    · split at h
      · rename_i h'; exact List.mem_cons_of_mem _ (List.mem_singleton.2 h')
      · cases h
  · intro a t h
    obtain ⟨rfl | rfl, rfl⟩ := hHT a t h
    · exact ⟨_, rfl, demo_node_writable _ _ _ (by simp)⟩
    · refine ⟨.obj [(Demo.fV.key, .int (-2)), (Demo.fN.key, .ref 1000)], ?_, demo_node_writable _ _ _ (by simp)⟩
      unfold Demo.ring; rw [if_neg (by decide), if_pos rfl]

end Verif
