import Verif.Lemmas.JsonCost
import Verif.Props.JsonText
import Verif.Props.BinaryCost
import Verif.Props.JsonRoundTrip

/-!
# C73: resources needed for reading JSON documents
-/

namespace Verif
open Verif.JsonText

/-- **C73** (memory and errors): let no class read a member twice and let `S` be a set of types containing with each type those
occurring in it, but no multimaps; `C` bounds the size of new objects and `B` the nesting of optionals and pointers. Whatever the
document, the read object exceeds what it contained before by at most `C * (B + 1)` per unit of the document's size (values, names and
characters), and at most three errors per unit are added to the list of errors — even if an exception is thrown. -/
theorem C73_memory (E : Env) (S : Ty → Prop) (hS : ∀ t, S t → ∀ t' ∈ tyNext E t, S t') (hR : ReadOnce E S) (C B : Nat)
    (hC : NewObjectsUpTo E S C) (hB : ∀ t, S t → t.wraps ≤ B) (hM : ∀ h k t, ¬ S (.map h true k t)) (n : Nat) (t : Ty) (ht : S t)
    (j : Json) (p : Val) (s : Option ErrSt) :
    (∀ v s', pull E n t j p s = .ok v s' →
      v.amount ≤ p.amount + C * (B + 1) * j.volume ∧ errorCount s' ≤ errorCount s + 3 * j.volume) ∧
    (∀ e s', pull E n t j p s = .exc e s' → errorCount s' ≤ errorCount s + 3 * j.volume) := by
  have hp := (good_pull (mm := false) hB hC hS (fun h k t hm => absurd hm (hM h k t)) hR n).1
  have h1 := cheap_upd rfl hB hp ht j p s
  rw [vol_false] at h1
  refine ⟨fun v s' h => ?_, fun e s' h => ?_⟩ <;> rw [h] at h1
  · exact ⟨h1.1, by have := h1.2; omega⟩
  · have : errorCount s' ≤ _ := h1
    omega

/-- **C73** (memory, with multimaps): the names of a multimap are copied for each element of the array. So in the presence of
multimaps the bound is quadratic. -/
theorem C73_memory_multimaps (E : Env) (S : Ty → Prop) (hS : ∀ t, S t → ∀ t' ∈ tyNext E t, S t') (hR : ReadOnce E S) (C B : Nat)
    (hC : NewObjectsUpTo E S C) (hB : ∀ t, S t → t.wraps ≤ B) (n : Nat) (t : Ty) (ht : S t)
    (j : Json) (p : Val) (s : Option ErrSt) :
    (∀ v s', pull E n t j p s = .ok v s' →
      v.amount ≤ p.amount + C * (B + 1) * j.volume ^ 2 ∧ errorCount s' ≤ errorCount s + 3 * j.volume) ∧
    (∀ e s', pull E n t j p s = .exc e s' → errorCount s' ≤ errorCount s + 3 * j.volume) := by
  have hp := (good_pull (mm := true) hB hC hS (fun _ _ _ _ => rfl) hR n).1
  have h1 := cheap_upd rfl hB hp ht j p s
  have h2 := Nat.mul_le_mul_left (C * (B + 1)) (vol_true j)
  refine ⟨fun v s' h => ?_, fun e s' h => ?_⟩ <;> rw [h] at h1
  · exact ⟨by have := h1.1; omega, by have := h1.2; omega⟩
  · have : errorCount s' ≤ _ := h1
    omega

/-! ## texts -/

theorem encode_length (n : Nat) : (encode n).length ≤ 4 := by
  unfold encode
  rw [String.length_utf8EncodeChar]
  exact Char.utf8Size_le_four _

theorem hex4_length {t : Str} {n : Nat} (h : Hex4 t n) : t.length = 4 := by
  obtain ⟨a, b, c, d, _, _, _, _, rfl, _⟩ := h
  rfl

theorem chars_longer {s t : Str} (h : Chars s t) : s.length ≤ t.length := by
  induction h with
  | nil => exact Nat.le_refl _
  | plain c _ _ _ _ ih => simp only [List.length_cons]; omega
  | short e b _ _ ih => simp only [List.length_cons]; omega
  | unicode h n h4 _ _ ih =>
    have := encode_length n
    have := hex4_length h4
    simp only [List.length_cons, List.length_append]; omega
  | surrogates h l n m k h4 h4' _ _ _ _ _ _ ih =>
    have := encode_length k
    have := hex4_length h4
    have := hex4_length h4'
    simp only [List.length_cons, List.length_append]; omega

theorem strText_longer {s t : Str} (h : StrText s t) : s.length + 2 ≤ t.length := by
  obtain ⟨u, h, rfl⟩ := h
  have := chars_longer h
  simp only [List.length_cons, List.length_append, List.length_nil]; omega

theorem numText_longer {D : Dbl} {n : Num} {t : Str} (h : NumText D n t) : 1 ≤ t.length := by
  have ip : ∀ ds, IntPart ds → 1 ≤ ds.length := fun ds h => List.length_pos_iff.2 h.1.1
  cases h with
  | int ds h => exact ip _ h
  | neg ds h => simp
  | dbl sign ds f e d _ h => have := ip _ h; simp only [List.length_append]; omega

/-- a document is not larger than a text denoting it -/
theorem text_volume {D : Dbl} {j : Json} {t : Str} (h : Text D j t) : j.volume ≤ t.length ∧ 2 * j.depth ≤ t.length := by
  refine Text.rec (D := D) (motive_1 := fun j t _ => j.volume ≤ t.length ∧ 2 * j.depth ≤ t.length)
    (motive_2 := fun js t _ => Json.volumeL js ≤ t.length ∧ 2 * Json.depthL js ≤ t.length)
    (motive_3 := fun ms t _ => Json.volumeM ms ≤ t.length ∧ 2 * Json.depthM ms ≤ t.length) ?_ ?_ ?_ ?_ ?_ ?_ ?_ ?_ ?_ ?_ ?_ ?_ ?_ h
  · exact ⟨by decide, Nat.zero_le _⟩
  · exact ⟨by decide, Nat.zero_le _⟩
  · exact ⟨by decide, Nat.zero_le _⟩
  · intro n t h; exact ⟨numText_longer h, Nat.zero_le _⟩
  · intro s t h; have := strText_longer h; exact ⟨by simp only [Json.volume]; omega, Nat.zero_le _⟩
  · intro b _; simp [Json.volume, Json.volumeL, Json.depth, Json.depthL]
  · intro js t _ ih
    simp only [Json.volume, Json.depth, List.length_cons, List.length_append, List.length_nil]; omega
  · intro b _; simp [Json.volume, Json.volumeM, Json.depth, Json.depthM]
  · intro js t _ ih
    simp only [Json.volume, Json.depth, List.length_cons, List.length_append, List.length_nil]; omega
  · intro j t b b' _ _ _ ih
    simp only [Json.volumeL, Json.depthL, List.length_append]; omega
  · intro j t b b' js u _ _ _ _ ih1 ih2
    simp only [Json.volumeL, Json.depthL, List.length_append, List.length_cons]; omega
  · intro k kt j t b b1 b2 b' _ hk _ _ _ _ ih
    have := strText_longer hk
    simp only [Json.volumeM, Json.depthM, List.length_append, List.length_cons]; omega
  · intro k kt j t b b1 b2 b' ms u _ hk _ _ _ _ _ ih1 ih2
    have := strText_longer hk
    simp only [Json.volumeM, Json.depthM, List.length_append, List.length_cons]; omega

/-- **C73** (size of parsed documents): a text yields a document of at most as many values, names and characters as it has bytes and
which is nested at most half as deep. -/
theorem C73_parsed_volume (D : Dbl) (s : Str) (j : Json) (h : textParser D s = .ok j) :
    j.volume ≤ s.length ∧ 2 * j.depth ≤ s.length := by
  obtain ⟨bom, b, t, b', tail, rfl, -, -, ht, -⟩ := (C52_accepts_exactly D s j).1 h
  have := text_volume ht
  simp only [List.length_append]
  omega

/-- what `fromJson` does with a parsed document -/
theorem fromJson_cases (E : Env) (P : Parser) (n : Nat) (t : Ty) (text : Str) (s : Option ErrSt) :
    (∃ e, fromJson E P n t text s = .exc (.parse e) s) ∨ fromJson E P n t text s = .stuck ∨
    ∃ j, P text = .ok j ∧ (fromJson E P n t text s = liftP (pull E n t j (E.defInit t)) s ∧ t.wraps = 0 ∨
      fromJson E P n t text s = topMismatch E t j s ∨ ∃ v, fromJson E P n t text s = .ok v s ∧ v.amount < j.volume) := by
  cases hp : P text with
  | error e =>
    cases t with
    | int it =>
      by_cases hi : jsonInt it
      · left; exact ⟨e, by simp only [fromJson, parseDoc, hp, M.bind_apply, M.throw_apply, hi, if_true]⟩
      · right; left; simp only [fromJson, hi]; rfl
    | bool | f32 | f64 | str | vec | map | cls =>
      left; exact ⟨e, by simp only [fromJson, parseDoc, hp, M.bind_apply, M.throw_apply]⟩
    | _ => right; left; rfl
  | ok j =>
    have stay : ∀ v : Val, v.amount = 0 → fromJson E P n t text s = .ok v s →
        ∃ v, fromJson E P n t text s = .ok v s ∧ v.amount < j.volume := fun v hv h => ⟨v, h, by have := j.volume_pos; omega⟩
    cases t with
    | cls c =>
      right; right; refine ⟨j, rfl, ?_⟩
      cases j <;> simp [fromJson, parseDoc, hp, M.bind_apply, Ty.wraps]
    | map h m k v =>
      right; right; refine ⟨j, rfl, ?_⟩
      cases j <;> simp [fromJson, parseDoc, hp, M.bind_apply, Ty.wraps]
    | vec t =>
      right; right; refine ⟨j, rfl, ?_⟩
      cases j <;> simp [fromJson, parseDoc, hp, M.bind_apply, Ty.wraps]
    | bool =>
      right; right; refine ⟨j, rfl, ?_⟩
      cases j with
      | bool b => right; right; exact stay (.bool b) rfl (by simp [fromJson, parseDoc, hp, M.bind_apply])
      | _ => right; left; simp [fromJson, parseDoc, hp, M.bind_apply]
    | f64 =>
      right; right; refine ⟨j, rfl, ?_⟩
      cases j with
      | num x =>
        cases x with
        | dbl d => right; right; exact stay (.f64 d) rfl (by simp [fromJson, parseDoc, hp, M.bind_apply])
        | int i => right; left; simp [fromJson, parseDoc, hp, M.bind_apply]
      | _ => right; left; simp [fromJson, parseDoc, hp, M.bind_apply]
    | f32 =>
      right; right; refine ⟨j, rfl, ?_⟩
      cases j with
      | num x =>
        cases x with
        | dbl d =>
          by_cases hd : floatRange d
          · right; right; exact stay (.f32 (Ieee.narrow d)) rfl (by simp [fromJson, parseDoc, hp, M.bind_apply, hd])
          · right; left; simp [fromJson, parseDoc, hp, M.bind_apply, hd]
        | int i => right; left; simp [fromJson, parseDoc, hp, M.bind_apply]
      | _ => right; left; simp [fromJson, parseDoc, hp, M.bind_apply]
    | int it =>
      by_cases hi : jsonInt it
      · right; right; refine ⟨j, rfl, ?_⟩
        cases j with
        | num x =>
          cases x with
          | int i =>
            by_cases hd : it.inRange i
            · right; right; exact stay (.int i) rfl (by simp [fromJson, parseDoc, hp, M.bind_apply, hd, hi])
            · right; left; simp [fromJson, parseDoc, hp, M.bind_apply, hd, hi]
          | dbl i => right; left; simp [fromJson, parseDoc, hp, M.bind_apply, hi]
        | _ => right; left; simp [fromJson, parseDoc, hp, M.bind_apply, hi]
      · right; left; simp only [fromJson, hi]; rfl
    | str =>
      right; right; refine ⟨j, rfl, ?_⟩
      cases j with
      | str x =>
        right; right
        refine ⟨.str (cstrOf x), by simp [fromJson, parseDoc, hp, M.bind_apply], ?_⟩
        have := cstrOf_length x
        simp only [Val.amount, Json.volume]; omega
      | _ => right; left; simp [fromJson, parseDoc, hp, M.bind_apply]
    | _ => right; left; rfl

/-- **C73** (memory and errors) for `fromJson`: whatever the text, the result contains at most `C * (B + 1)` bytes of strings, elements
and owned objects per byte of the text, and at most three errors per byte are reported. -/
theorem C73_fromJson_memory (E : Env) (S : Ty → Prop) (hS : ∀ t, S t → ∀ t' ∈ tyNext E t, S t') (hR : ReadOnce E S) (C B : Nat)
    (hC : NewObjectsUpTo E S C) (hB : ∀ t, S t → t.wraps ≤ B) (hM : ∀ h k t, ¬ S (.map h true k t)) (D : Dbl) (n : Nat) (t : Ty)
    (ht : S t) (text : Str) (s : Option ErrSt) :
    (∀ v s', fromJson E (textParser D) n t text s = .ok v s' →
      v.amount ≤ C * (B + 1) * text.length ∧ errorCount s' ≤ errorCount s + 3 * text.length) ∧
    (∀ e s', fromJson E (textParser D) n t text s = .exc e s' → errorCount s' ≤ errorCount s + 3 * text.length) := by
  have hW : C ≤ C * (B + 1) := Nat.le_mul_of_pos_right _ (by omega)
  have hC1 := hC t ht
  rcases fromJson_cases E (textParser D) n t text s with ⟨e, h⟩ | h | ⟨j, hj, h⟩
  · refine ⟨fun v s' h' => ?_, fun e s' h' => ?_⟩ <;> rw [h] at h' <;> cases h'
    omega
  · refine ⟨fun v s' h' => ?_, fun e s' h' => ?_⟩ <;> rw [h] at h' <;> cases h'
  have hv := (C73_parsed_volume D text j hj).1
  have hpos := j.volume_pos
  have hv1 : C * (B + 1) ≤ C * (B + 1) * text.length := Nat.le_mul_of_pos_right _ (by omega)
  rcases h with ⟨h, hw⟩ | h | ⟨v, h, hvv⟩
  · have hp := (good_pull (mm := false) hB hC hS (fun h k t hm => absurd hm (hM h k t)) hR n).1 t j (E.defInit t) ht s
    rw [vol_false, hw] at hp
    have := Nat.mul_le_mul_left (C * (B + 1)) hv
    refine ⟨fun v s' h' => ?_, fun e s' h' => ?_⟩
    · rw [h] at h'
      unfold liftP at h'
      generalize hr : pull E n t j (E.defInit t) s = r at h' hp
      cases r <;> cases h'
      have h1 := hp.1
      have h2 := hp.2
      dsimp only at h1
      omega
    · rw [h] at h'
      unfold liftP at h'
      generalize hr : pull E n t j (E.defInit t) s = r at h' hp
      cases r <;> cases h'
      have : errorCount s' ≤ _ := hp
      omega
  · have hr := cheap_report .typeMismatch (jtypeOf t) j.jtype 0 s
    refine ⟨fun v s' h' => ?_, fun e s' h' => ?_⟩
    · rw [h, topMismatch, M.bind_apply] at h'
      unfold liftP at h'
      generalize hr : report .typeMismatch (jtypeOf t) j.jtype s = r at h' hr
      cases r <;> cases h'
      have h2 := hr.2
      omega
    · rw [h, topMismatch, M.bind_apply] at h'
      unfold liftP at h'
      generalize hr : report .typeMismatch (jtypeOf t) j.jtype s = r at h' hr
      cases r <;> cases h'
      have h2 : errorCount s' ≤ _ := hr
      omega
  · refine ⟨fun v' s' h' => ?_, fun e s' h' => ?_⟩ <;> rw [h] at h' <;> cases h'
    have : text.length ≤ C * (B + 1) * text.length := Nat.le_mul_of_pos_left _ (by omega)
    exact ⟨by omega, by omega⟩

/-- **C73** (call depth) for `fromJson`: the number of nested calls is bounded by the length of the text. -/
theorem C73_fromJson_call_depth (E : Env) (rank : ClassId → Nat) (hr : Ranked E rank) (S : Ty → Prop) (B : Nat)
    (hS : ∀ t, S t → headRank rank t ≤ B ∧ ∀ t' ∈ tyNext E t, S t') (D : Dbl) (n : Nat) (t : Ty) (ht : S t) (text : Str)
    (s : Option ErrSt) (hn : text.length / 2 * (B + 1) + B + 1 ≤ n) : fromJson E (textParser D) n t text s ≠ .fuel := by
  rcases fromJson_cases E (textParser D) n t text s with ⟨e, h⟩ | h | ⟨j, hj, h⟩
  · rw [h]; exact nofun
  · rw [h]; exact nofun
  have hd : j.depth ≤ text.length / 2 := by have := (C73_parsed_volume D text j hj).2; omega
  rcases h with ⟨h, hw⟩ | h | ⟨v, h, hvv⟩
  · have := C23_recursion_depth_bound E rank hr S B hS t ht j (E.defInit t) s n
      (by have := Nat.mul_le_mul_right (B + 1) hd; omega)
    rw [h]
    unfold liftP
    intro h'
    generalize hr : pull E n t j (E.defInit t) s = r at h' this
    cases r <;> cases h'
    exact this rfl
  · rw [h, topMismatch, M.bind_apply]
    cases s with
    | none => exact nofun
    | some st =>
      by_cases hf : st.throwOn &&& ErrKind.typeMismatch.flag ≠ 0
      · simp only [liftP, report, if_pos hf]; exact nofun
      · simp only [liftP, report, if_neg hf]; exact nofun
  · rw [h]; exact nofun

/-! ## the bounds are attained -/

/-- **C73** (limits): the quadratic bound is attained: a document of size `2 * n + 3` makes a multimap hold `n * (n + 1)` bytes of
strings and elements. -/
theorem C73_multimap_copies_names (E : Env) (h : Bool) (k n : Nat) (c : UInt8) (hc : c ≠ 0) (s : Option ErrSt) :
    (Json.obj [(⟨List.replicate n c, .copied⟩, .arr (List.replicate n (.bool true)))]).volume = 2 * n + 3 ∧
    ∃ v, pull E (k + 2) (.map h true .str .bool) (.obj [(⟨List.replicate n c, .copied⟩, .arr (List.replicate n (.bool true)))])
      (.map []) s = .ok v s ∧ v.amount = n * (n + 1) := by
  have hvol : ∀ m, Json.volumeL (List.replicate m (.bool true)) = m := by
    intro m
    induction m with
    | zero => rfl
    | succ m ih => simp only [List.replicate_succ, Json.volumeL, ih, Json.volume]; omega
  have hcs : cstrOf (List.replicate n c) = List.replicate n c := by
    refine cstrOf_eq fun hx => hc (List.eq_of_mem_replicate hx).symm
  refine ⟨by simp only [Json.volume, Json.volumeM, hvol, List.length_replicate]; omega, ?_⟩
  have items : ∀ m kvs, ∃ kvs', pullMultimapItems E (pull E (k + 1)) .bool (List.replicate n c) (List.replicate m (.bool true)) kvs s =
      .ok kvs' s ∧ Val.amountKV kvs' = Val.amountKV kvs + m * (n + 1) := by
    intro m
    induction m with
    | zero => exact fun kvs => ⟨kvs, rfl, by omega⟩
    | succ m ih =>
      intro kvs
      obtain ⟨kvs', h1, h2⟩ := ih (mapInsertMulti (E.lt .str) (.str (List.replicate n c)) (.bool true) kvs)
      refine ⟨kvs', ?_, ?_⟩
      · rw [List.replicate_succ]
        exact h1
      · rw [h2, amountKV_mapInsertMulti]
        simp only [Val.amount, List.length_replicate, Nat.add_mul]
        omega
  obtain ⟨kvs', h1, h2⟩ := items n []
  refine ⟨.map kvs', ?_, by simpa [Val.amount, Val.amountKV] using h2⟩
  change pullStep E (pull E (k + 1)) _ _ _ _ = _
  simp only [pullStep, pullMultimapEntries, hcs, if_true]
  exact (M.bind_ok ((M.bind_ok h1).trans rfl)).trans rfl

/-- the document `{"f": {"x": {"f": {"x": ... {"f": true} ...}}}}` -/
def onion (name : Str) : Nat → Json
  | 0 => .obj [(⟨name, .copied⟩, .bool true)]
  | k + 1 => .obj [(⟨name, .copied⟩, .obj [(⟨lit "x", .copied⟩, onion name k)])]

theorem onion_volume (name : Str) (k : Nat) : (onion name k).volume = k * (name.length + 5) + name.length + 3 := by
  induction k with
  | zero => simp [onion, Json.volume, Json.volumeM]
  | succ k ih =>
    have : (lit "x").length = 1 := by decide
    simp only [onion, Json.volume, Json.volumeM, ih, Nat.add_mul, this]; omega

/-- reading `j` as `t` into the map `kvs` adds at least `a` to it and reports exactly `e` errors (no exception is thrown on errors) -/
def Adds (E : Env) (f : FieldKey → Val → Val) (t : Ty) (key : FieldKey) (j : Json) (a e : Nat) : Prop :=
  ∃ N, ∀ n, N ≤ n → ∀ kvs st, st.throwOn = 0 → ∃ kvs' st', pull E n t j (f key (.map kvs)) (some st) = .ok (f key (.map kvs')) (some st') ∧
    st'.throwOn = 0 ∧ Val.amountKV kvs + a ≤ Val.amountKV kvs' ∧ st'.errs.length = st.errs.length + e

def inObj (key : FieldKey) (v : Val) : Val := .obj [(key, v)]

section
variable {E : Env} {f : Field} {r m d : ClassId}

theorem adds_root (hcls : ThreeLevels E f r m d) {j : Json} {a e : Nat} (h : Adds E (fun _ v => v) f.ty f.key j a e) :
    Adds E inObj (.cls r) f.key (.obj [(⟨f.name, .copied⟩, j)]) a e := by
  obtain ⟨cr, hr, hrj⟩ := hcls.root
  obtain ⟨N, h⟩ := h
  refine ⟨N + 1, fun n hn kvs st hst => ?_⟩
  cases n with
  | zero => omega
  | succ n =>
    obtain ⟨kvs', st', h1, h2, h3, h4⟩ := h n (by omega) kvs { st with record := some cr.qname, member := some f.name } hst
    refine ⟨kvs', { st' with member := st.member, record := st.record }, ?_, h2, h3, h4⟩
    have hf : findMember f.name [((⟨f.name, .copied⟩ : Key), j)] = some j := by simp [findMember]
    have hg : Store.get? [(f.key, Val.map kvs)] f.key = some (.map kvs) := by simp [Store.get?]
    change pullStep E (pull E n) _ _ _ _ = _
    simp only [pullStep, hr, hrj, Bool.true_eq_false, if_false, if_true, inObj, pullBases, pullFields, pullField, hf, hg,
      M.bind_apply, M.pure_apply, withRecord_some, withMember_some, h1, Option.map_some]
    simp [Store.set]

theorem adds_mid (hcls : ThreeLevels E f r m d) {j : Json} {a e : Nat} (h : Adds E (fun _ v => v) f.ty f.key j a e) :
    Adds E inObj (.cls m) f.key (.obj [(⟨f.name, .copied⟩, j)]) a e := by
  obtain ⟨cm, hm, hmj⟩ := hcls.mid
  obtain ⟨N, h⟩ := adds_root hcls h
  refine ⟨N + 1, fun n hn kvs st hst => ?_⟩
  cases n with
  | zero => omega
  | succ n =>
    obtain ⟨kvs', st', h1, h2, h3, h4⟩ := h n (by omega) kvs st hst
    refine ⟨kvs', st', ?_, h2, h3, h4⟩
    simp only [inObj] at h1
    change pullStep E (pull E n) _ _ _ _ = _
    simp only [pullStep, hm, hmj, Bool.true_eq_false, if_false, if_true, inObj, pullBases, pullFields,
      M.bind_apply, M.pure_apply, withRecord_some, h1, Option.map_some]

theorem adds_leaf (hcls : ThreeLevels E f r m d) {j : Json} {a e : Nat} (h : Adds E (fun _ v => v) f.ty f.key j a e) :
    Adds E inObj (.cls d) f.key (.obj [(⟨f.name, .copied⟩, j)]) (2 * a) (2 * e) := by
  obtain ⟨cd, hd, hdj⟩ := hcls.leaf
  obtain ⟨N, h1⟩ := adds_root hcls h
  obtain ⟨N', h2⟩ := adds_mid hcls h
  refine ⟨max N N' + 1, fun n hn kvs st hst => ?_⟩
  cases n with
  | zero => omega
  | succ n =>
    obtain ⟨kvs1, st1, a1, a2, a3, a4⟩ := h1 n (by omega) kvs st hst
    obtain ⟨kvs2, st2, b1, b2, b3, b4⟩ := h2 n (by omega) kvs1 st1 a2
    refine ⟨kvs2, st2, ?_, b2, by omega, by omega⟩
    simp only [inObj] at a1 b1
    change pullStep E (pull E n) _ _ _ _ = _
    simp only [pullStep, hd, hdj, Bool.true_eq_false, if_false, if_true, inObj, pullBases, pullFields,
      M.bind_apply, M.pure_apply, withRecord_some, a1, b1, Option.map_some]

end

/-- **C73** (limits): `ReadOnce` is needed. If a class lists an indirect base next to the direct one (as the generator does), then the
members of the indirect base are read twice — on each level: a document of linear size yields an object of exponential size and
exponentially many errors. -/
theorem C73_exponential_without_ReadOnce (E : Env) (f : Field) (r m d : ClassId) (hashed : Bool) (hcls : ThreeLevels E f r m d)
    (hty : f.ty = .map hashed true .str (.uptr (.cls d))) (hinit : E.valInit (.cls d) = .obj [(f.key, .map [])]) (k : Nat) :
    (onion f.name k).volume = k * (f.name.length + 5) + f.name.length + 3 ∧
    ∃ N, ∀ n, N ≤ n → ∀ st, st.throwOn = 0 → ∃ v st', pull E n (.cls d) (onion f.name k) (.obj [(f.key, .map [])]) (some st) =
      .ok v (some st') ∧ 2 ^ k ≤ v.amount + 1 ∧ st'.errs.length = st.errs.length + 2 ^ (k + 1) := by
  refine ⟨onion_volume f.name k, ?_⟩
  have key : ∀ k, Adds E inObj (.cls d) f.key (onion f.name k) (2 ^ k - 1) (2 ^ (k + 1)) := by
    intro k
    induction k with
    | zero =>
      refine adds_leaf hcls (j := .bool true) (a := 0) (e := 1) ⟨1, fun n hn kvs st hst => ?_⟩
      cases n with
      | zero => omega
      | succ n =>
        refine ⟨kvs, st.push (st.mk' .typeMismatch (jtypeOf f.ty) (Json.bool true).jtype), ?_, hst, by omega, by simp [ErrSt.push]⟩
        rw [hty]
        change (report _ _ _ >>= fun _ => pure _) _ = _
        have : ¬ st.throwOn &&& ErrKind.typeMismatch.flag ≠ 0 := by rw [hst]; simp
        simp only [M.bind_apply, report, if_neg this, M.pure_apply]
    | succ k ih =>
      have h1 : Adds E (fun _ v => v) f.ty f.key (.obj [(⟨lit "x", .copied⟩, onion f.name k)]) (2 ^ k) (2 ^ (k + 1)) := by
        obtain ⟨N, h⟩ := ih
        refine ⟨N + 2, fun n hn kvs st hst => ?_⟩
        match n, hn with
        | n + 2, hn =>
          obtain ⟨kvs', st', a1, a2, a3, a4⟩ := h n (by omega) [] st hst
          refine ⟨mapInsertMulti (E.lt .str) (.str (cstrOf (lit "x"))) (.ptr (inObj f.key (.map kvs'))) kvs, st', ?_, a2, ?_, a4⟩
          · have hu : pull E (n + 1) (.uptr (.cls d)) (onion f.name k) (E.valInit (.uptr (.cls d))) (some st) =
                .ok (.ptr (inObj f.key (.map kvs'))) (some st') := by
              change pullStep E (pull E n) _ _ _ _ = _
              cases k <;> simp only [onion, pullStep, hinit] <;> exact (M.bind_ok a1).trans rfl
            rw [hty]
            change pullStep E (pull E (n + 1)) _ _ _ _ = _
            have hi : pullMultimapItems E (pull E (n + 1)) (.uptr (.cls d)) (cstrOf (lit "x")) [onion f.name k] kvs (some st) =
                .ok (mapInsertMulti (E.lt .str) (.str (cstrOf (lit "x"))) (.ptr (inObj f.key (.map kvs'))) kvs) (some st') :=
              (M.bind_ok hu).trans rfl
            simp only [pullStep, pullMultimapEntries, if_true]
            refine (M.bind_ok (a := mapInsertMulti (E.lt .str) (.str (cstrOf (lit "x"))) (.ptr (inObj f.key (.map kvs'))) kvs)
              (s' := some st') ?_).trans rfl
            refine Eq.trans (M.bind_ok (Eq.trans ?_ hi)) rfl
            cases k <;> rfl
          · rw [amountKV_mapInsertMulti]
            simp only [Val.amount, inObj, Val.amountF, Val.amountKV] at a3 ⊢
            have := Nat.two_pow_pos k
            omega
      obtain ⟨N, h2⟩ := adds_leaf hcls h1
      refine ⟨N, fun n hn kvs st hst => ?_⟩
      obtain ⟨kvs', st', a1, a2, a3, a4⟩ := h2 n hn kvs st hst
      exact ⟨kvs', st', a1, a2, by rw [Nat.pow_succ]; omega, by rw [Nat.pow_succ 2 (k + 1)]; omega⟩
  obtain ⟨N, h⟩ := key k
  refine ⟨N, fun n hn st hst => ?_⟩
  obtain ⟨kvs', st', a1, a2, a3, a4⟩ := h n hn [] st hst
  exact ⟨_, st', a1, by simp only [inObj, Val.amount, Val.amountF, Val.amountKV] at a3 ⊢; omega, a4⟩

/-- a chain of `k` objects owned by the first one -/
def chain (key : FieldKey) : Nat → Val
  | 0 => .obj [(key, .null)]
  | k + 1 => .obj [(key, .ptr (chain key k))]

/-- **C73** (limits): likewise when writing: the members of the indirect base are written twice, so the document for a chain of `k`
objects is exponentially large. -/
theorem C73_exponential_documents (E : Env) (H : Heap) (f : Field) (r m d : ClassId) (hcls : ThreeLevels E f r m d)
    (hty : f.ty = .uptr (.cls d)) (k : Nat) :
    ∃ j, (∃ N, ∀ n, N ≤ n → push E H n (.cls d) (chain f.key k) () = .ok j ()) ∧ 2 ^ k ≤ j.volume := by
  obtain ⟨cr, hr, hrj⟩ := hcls.root
  obtain ⟨cm, hm, hmj⟩ := hcls.mid
  obtain ⟨cd, hd, hdj⟩ := hcls.leaf
  have step : ∀ v j, Writes E H f.ty v j →
      Writes E H (.cls d) (.obj [(f.key, v)]) (.obj [(⟨f.name, .literal⟩, j), (⟨f.name, .literal⟩, j)]) := by
    intro v j0 w0
    have hg : Store.get? [(f.key, v)] f.key = some v := by simp [Store.get?]
    have wr : Writes E H (.cls r) (.obj [(f.key, v)]) (.obj [(⟨f.name, .literal⟩, j0)]) := by
      refine w0.succ fun n hn => ?_
      change pushStep E H (push E H n) _ _ _ = _
      simp only [pushStep, hr, hrj]
      refine SM.bind_ok_iff.2 ⟨[], rfl, SM.map_ok_iff.2 ⟨[(⟨f.name, .literal⟩, j0)], ?_, rfl⟩⟩
      simp only [pushFields, hg]
      exact SM.bind_ok_iff.2 ⟨j0, hn, rfl⟩
    have wm : Writes E H (.cls m) (.obj [(f.key, v)]) (.obj [(⟨f.name, .literal⟩, j0)]) := by
      refine wr.succ fun n hn => ?_
      change pushStep E H (push E H n) _ _ _ = _
      simp only [pushStep, hm, hmj]
      refine SM.bind_ok_iff.2 ⟨[(⟨f.name, .literal⟩, j0)], ?_, rfl⟩
      exact SM.bind_ok_iff.2 ⟨_, hn, rfl⟩
    refine (wr.and wm).succ fun n hn => ?_
    change pushStep E H (push E H n) _ _ _ = _
    simp only [pushStep, hd, hdj]
    refine SM.bind_ok_iff.2 ⟨[(⟨f.name, .literal⟩, j0), (⟨f.name, .literal⟩, j0)], ?_, rfl⟩
    refine SM.bind_ok_iff.2 ⟨_, hn.1, ?_⟩
    refine SM.bind_ok_iff.2 ⟨[(⟨f.name, .literal⟩, j0)], ?_, rfl⟩
    exact SM.bind_ok_iff.2 ⟨_, hn.2, rfl⟩
  induction k with
  | zero =>
    have w0 : Writes E H f.ty .null .null := by
      rw [hty]
      refine ⟨1, fun n hn => ?_⟩
      cases n with
      | zero => omega
      | succ n => rfl
    exact ⟨_, step _ _ w0, by simp [Json.volume]⟩
  | succ k ih =>
    obtain ⟨j, hw, hv⟩ := ih
    have w1 : Writes E H f.ty (.ptr (chain f.key k)) j := by
      rw [hty]
      refine Ev.succ hw fun n hn => ?_
      exact hn
    refine ⟨_, step _ _ w1, ?_⟩
    simp only [Json.volume, Json.volumeM, Nat.pow_succ]
    omega

/-! ### non-vacuity: all assumptions hold for the class `Derived`; the limits concern classes which exist -/

namespace JsonCostDemo
open Demo

def types : List Ty :=
  [.cls 1, .cls 0, .cls 2, .sptr (.cls 2), .int .i32, .str, .vec .str, .map false false .str (.int .i32)]

theorem closed : ∀ t, t ∈ types → ∀ t' ∈ tyNext env t, t' ∈ types := by
  decide +kernel

theorem readOnce : ReadOnce env (· ∈ types) := by
  intro c hc
  have : c = 1 ∨ c = 0 ∨ c = 2 := by
    simp only [types, List.mem_cons, List.not_mem_nil, or_false] at hc
    rcases hc with h | h | h | h | h | h | h | h <;> cases h <;> simp
  rcases this with rfl | rfl | rfl
  · exact ⟨_, .cons rfl rfl (.cons rfl rfl .nil .nil) .nil, by decide +kernel⟩
  · exact ⟨_, .cons rfl rfl .nil .nil, by decide +kernel⟩
  · exact ⟨_, .cons rfl rfl .nil .nil, by decide +kernel⟩

theorem newObjects : NewObjectsUpTo env (· ∈ types) 3 := by
  intro t ht
  simp only [types, List.mem_cons, List.not_mem_nil, or_false] at ht
  rcases ht with rfl | rfl | rfl | rfl | rfl | rfl | rfl | rfl <;> decide

theorem wraps : ∀ t, t ∈ types → t.wraps ≤ 1 := by decide +kernel

theorem noMultimaps (h : Bool) (k t : Ty) : ¬ Ty.map h true k t ∈ types := by
  simp [types]

/-- reading any text as `Derived` yields at most 6 things and 3 errors per byte -/
example (D : Dbl) (n : Nat) (text : Str) (st : ErrSt) (v : Val) (s' : Option ErrSt)
    (h : fromJson env (textParser D) n (.cls 1) text (some st) = .ok v s') :
    v.amount ≤ 6 * text.length ∧ errorCount s' ≤ st.errs.length + 3 * text.length :=
  (C73_fromJson_memory env _ closed readOnce 3 1 newObjects wraps noMultimaps D n (.cls 1) (by simp [types]) text (some st)).1 v s' h

/-- and never needs more than `length + 3` nested calls -/
example (D : Dbl) (text : Str) (s : Option ErrSt) :
    fromJson env (textParser D) (text.length / 2 * 2 + 2) (.cls 1) text s ≠ .fuel :=
  C73_fromJson_call_depth env demoRank demo_ranked (· ∈ types) 1
    (fun t ht => ⟨by revert t; decide +kernel, closed t ht⟩) D _ (.cls 1) (by simp [types]) text s (Nat.le_refl _)

def fY (t : Ty) : Field := ⟨0, lit "f", t⟩
def tower (t : Ty) (init : Val) : Env := { env with cls := fun c => match c with
    | 0 => some ⟨lit "R", ⟨[], [fY t], [fY t], true, true⟩, ⟨[], none, [], [], true⟩, [((fY t).key, init)], [((fY t).key, init)]⟩
    | 1 => some ⟨lit "M", ⟨[0], [], [], true, true⟩, ⟨[], none, [], [], true⟩, [((fY t).key, init)], [((fY t).key, init)]⟩
    | 2 => some ⟨lit "D", ⟨[0, 1], [], [], true, true⟩, ⟨[], none, [], [], true⟩, [((fY t).key, init)], [((fY t).key, init)]⟩
    | _ => none }

theorem three (t : Ty) (init : Val) : ThreeLevels (tower t init) (fY t) 0 1 2 := ⟨⟨_, rfl, rfl⟩, ⟨_, rfl, rfl⟩, ⟨_, rfl, rfl⟩⟩

/-- a document of size 184 makes an object of more than 10^9 things -/
example : (onion (lit "f") 30).volume = 184 ∧ ∃ N, ∀ n, N ≤ n → ∀ st, st.throwOn = 0 → ∃ v st',
    pull (tower (.map false true .str (.uptr (.cls 2))) (.map [])) n (.cls 2) (onion (lit "f") 30)
      (.obj [((fY (.map false true .str (.uptr (.cls 2)))).key, .map [])]) (some st) = .ok v (some st') ∧
      2 ^ 30 ≤ v.amount + 1 ∧ st'.errs.length = st.errs.length + 2 ^ 31 :=
  C73_exponential_without_ReadOnce (tower (.map false true .str (.uptr (.cls 2))) (.map [])) (fY (.map false true .str (.uptr (.cls 2))))
    0 1 2 false (three _ _) rfl rfl 30

example (H : Heap) : ∃ j, (∃ N, ∀ n, N ≤ n →
    push (tower (.uptr (.cls 2)) .null) H n (.cls 2) (chain (fY (.uptr (.cls 2))).key 30) () = .ok j ()) ∧ 2 ^ 30 ≤ j.volume :=
  C73_exponential_documents _ H (fY (.uptr (.cls 2))) 0 1 2 (three _ _) rfl 30

end JsonCostDemo

end Verif
