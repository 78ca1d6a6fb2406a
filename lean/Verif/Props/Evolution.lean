import Verif.Lemmas.Evolution
import Verif.Props.BinaryRoundTrip
import Verif.Props.BinaryVersions
import Verif.Props.BinaryCost

/-!
# C71: binary data exchanged between an older and a newer version of a program
-/

namespace Verif

section
variable {N : FieldKey → Val → Prop}

/-- **C71**: whatever the older program `E` is able to read, the newer program `E'` reads as well – from the same bytes, returning
the same version – provided that members added to versioned classes are only read as of a version newer than the older program's
(`ReadableBy`). All members the older program knows get the same values (`Extends`); members the older program does not know satisfy
`N` afterwards if they did before (`N` may state the value). Shared objects correspond to each other as well. -/
theorem C71_newer_reads_older (E E' : Env) (S : Ty → Prop) (W : Nat) (hN : ∀ k v, N k v → v.hasIndet = false) (hS : ClosedTypes E S)
    (hI : SameInit N S E E') (hO : SameOrder N E E') (hL : E.maxLen ≤ E'.maxLen) (hR : ReadableBy S W E E')
    (n : Nat) (c : ClassId) (hc : S (.cls c)) (p p' : Val) (hp : Extends N p p') (inp : Str) (v : Val) (version : Nat) (rs : RSt)
    (h : restoreFromBinary E n c p inp = .ok (v, version) rs) :
    ∃ v' rs', restoreFromBinary E' n c p' inp = .ok (v', version) rs' ∧ Extends N v v' ∧ rs'.inp = rs.inp ∧
      List.Forall₂ (Extends N) rs.heap rs'.heap := by
  unfold restoreFromBinary at h ⊢
  cases hci : E.cls c with
  | none => rw [hci] at h; cases h
  | some ci =>
    rw [hci] at h
    have hup := up_read hN hS hI hO hL hR n
    have hparts : ∀ t' ∈ binParts E (.cls c), S t' := hS _ hc
    simp only [binParts, hci, List.mem_append, List.mem_map] at hparts
    obtain ⟨ci', hci', hu⟩ := up_class (self := read E n) (self' := read E' n) hR hc hci (Nat.zero_le W)
      (fun b hb => hup _ (hparts _ (.inl ⟨b, hb, rfl⟩))) (fun gf hgf => hup _ (hparts _ (.inr ⟨gf, hgf, rfl⟩))) hp
    rw [hci']
    obtain ⟨⟨v', version'⟩, s1', h1, h2, h3, h4⟩ := hu (RSt.init inp) (RSt.init inp) ⟨rfl, rfl, .nil⟩ _ _ h
    cases h4
    exact ⟨v', s1', h1, h3, h2.1, h2.2.2⟩

/-- **C71**: the same for new objects. -/
theorem C71_newer_reads_older_fromBinary (E E' : Env) (S : Ty → Prop) (W : Nat) (hN : ∀ k v, N k v → v.hasIndet = false)
    (hS : ClosedTypes E S) (hI : SameInit N S E E') (hO : SameOrder N E E') (hL : E.maxLen ≤ E'.maxLen) (hR : ReadableBy S W E E')
    (n : Nat) (c : ClassId) (hc : S (.cls c)) (inp : Str) (v : Val) (rs : RSt) (h : fromBinary E n c inp = .ok v rs) :
    ∃ v' rs', fromBinary E' n c inp = .ok v' rs' ∧ Extends N v v' ∧ rs'.inp = rs.inp ∧ List.Forall₂ (Extends N) rs.heap rs'.heap := by
  unfold fromBinary at h
  cases hr : restoreFromBinary E n c (E.defInit (.cls c)) inp with
  | ok r s =>
    obtain ⟨v0, version⟩ := r
    rw [hr] at h
    cases h
    obtain ⟨v', rs', h1, h2⟩ := C71_newer_reads_older E E' S W hN hS hI hO hL hR n c hc _ _ (hI _ hc).2 inp _ version _ hr
    refine ⟨v', rs', ?_, h2⟩
    unfold fromBinary
    rw [h1]
  | exc e s => rw [hr] at h; cases h
  | ub => rw [hr] at h; cases h
  | stuck => rw [hr] at h; cases h
  | fuel => rw [hr] at h; cases h

/-- **C71**: what the older program `E` wrote is restored by the newer program `E'`: the object `v` (representable, see C27) written
by `E` is read by `E'` as an object `v'` having the content of a copy of `v` – and members unknown to `E`, satisfying `N`. -/
theorem C71_newer_restores_older (E E' : Env) (S : Ty → Prop) (W : Nat) (hN : ∀ k v, N k v → v.hasIndet = false)
    (hS : ClosedTypes E S) (hI : SameInit N S E E') (hO : SameOrder N E E') (hL : E.maxLen ≤ E'.maxLen) (hR : ReadableBy S W E E')
    (H : Heap) (HT : Nat → Option Ty) (n m : Nat) (c : ClassId) (hc : S (.cls c)) (v : Val) (version : Nat) (ws : WSt)
    (hH : ∀ ρ, HeapRepr E H HT ρ) (hv : ∀ ρ, BRepr E HT ρ version 0 (.cls c) (E.defInit (.cls c)) v) (hm : n ≤ m + 1)
    (hw : toBinary E H n c v version = .ok () ws) (rest : Str) :
    ∃ ρ copy heap v' rs', GraphCopy H v (fun a => heap[a]?) copy ρ ∧
      fromBinary E' m c (ws.out ++ rest) = .ok v' rs' ∧ rs'.inp = rest ∧ Extends N copy v' ∧
      List.Forall₂ (Extends N) heap rs'.heap := by
  obtain ⟨ρ, copy, rs, h1, h2, h3⟩ := C27_toBinary_fromBinary E H HT n m c v version ws hH hv hm hw rest
  obtain ⟨v', rs', h4, h5, h6, h7⟩ := C71_newer_reads_older_fromBinary E E' S W hN hS hI hO hL hR m c hc _ _ _ h1
  exact ⟨ρ, copy, rs.heap, v', rs', h3, h4, h6.trans h2, h5, h7⟩

/-- **C71**: told to write the older program's version, the newer program `E'` writes exactly the bytes the older program `E` writes
for the corresponding object – provided that for every class the version in effect and the members belonging to it are the same
(`WritesLike`); members the older program does not know do not matter. -/
theorem C71_newer_writes_like_older (E E' : Env) (P : Nat → Ty → Prop) (hP : WrittenTypes E P) (hW : WritesLike P E E')
    (hit : SameIteration N E E') (H H' : Heap) (hH : ∀ a x, H a = some x → ∃ x', H' a = some x' ∧ Extends N x x')
    (n : Nat) (c : ClassId) (version : Nat) (hc : P version (.cls c)) (v v' : Val) (hv : Extends N v v') (ws : WSt)
    (h : toBinary E H n c v version = .ok () ws) : toBinary E' H' n c v' version = .ok () ws :=
  up_write hP hW hit hH n version (.cls c) hc v v' hv WSt.init () ws h

/-- **C71**: hence the older program restores what the newer program writes with the older program's version: the object `v'` of the
newer program is written; the older program reads a copy of the corresponding object `v` of the older program. -/
theorem C71_older_restores_newer (E E' : Env) (P : Nat → Ty → Prop) (hP : WrittenTypes E P) (hW : WritesLike P E E')
    (hit : SameIteration N E E') (H H' : Heap) (hHH : ∀ a x, H a = some x → ∃ x', H' a = some x' ∧ Extends N x x')
    (HT : Nat → Option Ty) (n m : Nat) (c : ClassId) (version : Nat) (hc : P version (.cls c)) (v v' : Val) (hvv : Extends N v v')
    (ws : WSt) (hH : ∀ ρ, HeapRepr E H HT ρ) (hv : ∀ ρ, BRepr E HT ρ version 0 (.cls c) (E.defInit (.cls c)) v) (hm : n ≤ m + 1)
    (hw : toBinary E H n c v version = .ok () ws) (rest : Str) :
    ∃ ws', toBinary E' H' n c v' version = .ok () ws' ∧
      ∃ ρ copy rs, fromBinary E m c (ws'.out ++ rest) = .ok copy rs ∧ rs.inp = rest ∧ GraphCopy H v rs.asHeap copy ρ :=
  ⟨ws, C71_newer_writes_like_older E E' P hP hW hit H H' hHH n c version hc v v' hvv ws hw,
    C27_toBinary_fromBinary E H HT n m c v version ws hH hv hm hw rest⟩

end

theorem writesMembers_out {E : Env} {H : Heap} {n w : Nat} {st : Store} {fs : List Field} {s s' : WSt} (h : WritesMembers E H n w st fs s s') :
    ∃ more, s'.out = s.out ++ more := by
  induction h with
  | nil => exact ⟨[], (List.append_nil _).symm⟩
  | cons hg hx _ ih =>
    obtain ⟨m1, e1⟩ := ((write_appends E H n _ _ _).ok hx).1
    obtain ⟨m2, e2⟩ := ih
    exact ⟨m1 ++ m2, by rw [e2, ← e1, List.append_assoc]⟩

/-- **C71** (limit): the version to write does not reach the elements of containers; they are always written with the newest version
(see C39). If the version of a class `c` (here without base classes) has been increased from `d` to `d'` then a non-empty vector of
such objects written by the newer program `E'` is never readable by the older program `E`, no matter which version `w` is supposed to
be written. -/
theorem C71_elements_use_newest_version (E E' : Env) (H : Heap) (n m w r : Nat) (c : ClassId) (ci ci' : ClassInfo) (d d' : Nat)
    (hc : E.cls c = some ci) (hr : ci.bin.readable = true) (hb : ci.bin.bases = []) (hd : ci.bin.version = some d)
    (hc' : E'.cls c = some ci') (hb' : ci'.bin.bases = []) (hd' : ci'.bin.version = some d') (hdd : d < d')
    (v : Val) (vs : List Val) (hl : vs.length < E.maxLen) (ws : WSt)
    (hw : write E' H n w (.vec (.cls c)) (.list (v :: vs)) WSt.init = .ok () ws) (rest : Str) :
    ∃ rs, read E (m + 2) r (.vec (.cls c)) (.list []) (RSt.init (ws.out ++ rest)) = .exc (.version d' d ci.qname) rs := by
  match n, hw with
  | n + 1, hw =>
    simp only [write, writeStep] at hw
    obtain ⟨_, s1, h1, hw⟩ := M.bind_eq_ok.1 hw
    obtain ⟨L, hL, rfl⟩ := writeVarint_ok h1
    simp only [writeElems] at hw
    obtain ⟨_, s2, h2, hw⟩ := M.bind_eq_ok.1 hw
    -- the remaining elements
    have hpre : ∀ (l : List Val) (s s' : WSt), writeElems (write E' H n) (.cls c) l s = .ok () s' → ∃ more, s'.out = s.out ++ more := by
      intro l
      induction l with
      | nil => intro s s' h; cases h; exact ⟨[], (List.append_nil _).symm⟩
      | cons x l ih =>
        intro s s' h
        simp only [writeElems] at h
        obtain ⟨_, s3, h3, h⟩ := M.bind_eq_ok.1 h
        obtain ⟨m1, e1⟩ := ((write_appends E' H n 0 (.cls c) x).ok h3).1
        obtain ⟨m2, e2⟩ := ih _ _ h
        exact ⟨m1 ++ m2, by rw [e2, ← e1, List.append_assoc]⟩
    obtain ⟨more, hmore⟩ := hpre _ _ _ hw
    -- the first element
    match n, h2 with
    | n + 1, h2 =>
      have : ∃ st, v = .obj st := by
        simp only [write, writeStep] at h2
        cases v with
        | obj st => exact ⟨st, rfl⟩
        | tup vs => (rcases vs with _ | ⟨_, _ | ⟨_, _ | _⟩⟩ <;> cases h2)
        | _ => cases h2
      obtain ⟨st, rfl⟩ := this
      obtain ⟨s3, L', h3, hL', h4⟩ := (C39_layout_of_versioned_class E' H n 0 c ci' d' st _ _ hc' hd').1 h2
      rw [hb'] at h3
      cases h3
      simp only [if_true] at hL' h4
      have h5 := writesMembers_out h4
      obtain ⟨more', h5⟩ := h5
      have hout : ws.out ++ rest = beBytes L ((Val.obj st :: vs).length + 2 ^ (7 * L)) ++
          (beBytes L' (d' + 2 ^ (7 * L')) ++ (more' ++ (more ++ rest))) := by
        rw [hmore, h5]
        simp only [WSt.init, List.nil_append, List.append_assoc]
      obtain ⟨k1, k2, k3, -⟩ := varintLen_some hL
      have hsz := readVarint_append k1 k2 k3 (beBytes L' (d' + 2 ^ (7 * L')) ++ (more' ++ (more ++ rest))) ⟨[], [], []⟩
      have hel := (C38_rejected_bytes E m 0 c ci d d' L' ci.valInit (more' ++ (more ++ rest)) [] [] hc hr hd hb hL' hdd).1
      refine ⟨⟨more' ++ (more ++ rest), [], []⟩, ?_⟩
      rw [hout]
      simp only [read, readStep]
      rw [M.bind_ok (show readVarint (RSt.init _) = _ from hsz)]
      rw [if_neg (show ¬ (Val.obj st :: vs).length > E.maxLen by simp only [List.length_cons]; omega)]
      refine M.bind_exc ?_
      simp only [resize, List.take_nil, List.length_nil, List.nil_append, Nat.sub_zero, List.length_cons, List.replicate_succ, readElems]
      refine M.bind_exc ?_
      have hv : E.valInit (.cls c) = .obj ci.valInit := by simp [Env.valInit, hc]
      rw [hv]
      exact hel

/-! ## Non-vacuity -/

namespace EvDemo
open Demo

/-- member of `Derived` added in version 4 -/
def fT : Field := ⟨1, lit "t", .opt .str⟩

def derived4 : ClassInfo :=
  { derived with
    bin := ⟨[0], some 4, [(⟨2, 0⟩, fS), (⟨4, 0⟩, fT)], [(⟨2, 0⟩, fS), (⟨4, 0⟩, fT)], true⟩
    valInit := derived.valInit ++ [(fT.key, .null)]
    defInit := derived.defInit ++ [(fT.key, .null)] }

/-- the newer program -/
def env4 : Env := { env with cls := fun c => if c = 1 then some derived4 else env.cls c }

/-- new members: `Derived::t`, having its initial value -/
def Initial (k : FieldKey) (v : Val) : Prop := k = fT.key ∧ v = .null

/-- new members: `Derived::t`, having any value -/
def Any (k : FieldKey) (_ : Val) : Prop := k = fT.key

theorem extends_same {N : FieldKey → Val → Prop} (st : Store) (hn : (st.map Prod.fst).Nodup) (h : ∀ q ∈ st, Extends N q.2 q.2)
    (h' : ∀ q ∈ st, ∀ w, ¬ N q.1 w) : Extends N (.obj st) (.obj st) :=
  .mkObj hn hn (fun k v hv => ⟨v, hv, h _ (mem_of_get? hv)⟩) (fun k v h1 h2 => by rw [h1] at h2; cases h2)
    (fun k v w hv => h' _ (mem_of_get? hv) w)

/-- an object with a new member -/
theorem extends_add {N : FieldKey → Val → Prop} (st : Store) (k : FieldKey) (t : Val) (hn : ((st ++ [(k, t)]).map Prod.fst).Nodup)
    (h : ∀ q ∈ st, Extends N q.2 q.2) (h' : ∀ q ∈ st, ∀ w, ¬ N q.1 w) (ht : N k t) : Extends N (.obj st) (.obj (st ++ [(k, t)])) := by
  have hn' : (st.map Prod.fst).Nodup := by
    rw [List.map_append] at hn
    exact (List.nodup_append.1 hn).1
  refine .mkObj hn' hn (fun key v hv => ⟨v, ?_, h _ (mem_of_get? hv)⟩) (fun key v h1 h2 => ?_)
    (fun key v w hv => h' _ (mem_of_get? hv) w)
  · exact get?_eq_of_mem hn (List.mem_append_left _ (mem_of_get? hv))
  · rcases List.mem_append.1 (mem_of_get? h2) with h3 | h3
    · rw [get?_eq_of_mem hn' h3] at h1; cases h1
    · simp only [List.mem_singleton, Prod.mk.injEq] at h3
      rw [h3.1, h3.2]
      exact ht

/-- values which have been in `env` are values in `env4` -/
theorem extends_leaf_list {N : FieldKey → Val → Prop} (l : List Val) (h : ∀ x ∈ l, x.Leaf) : Extends N (.list l) (.list l) :=
  .list (forall₂_refl_leaf h)

theorem sameInitOf {N : FieldKey → Val → Prop} (h1 : N fT.key .null) (h2 : ∀ k v, N k v → k = fT.key) :
    SameInit N (· ∈ CostDemo.types) env env4 := by
  have hb : ∀ i : Val, i.Leaf → Extends N (.obj [(fI.key, i), (fM.key, .map [])]) (.obj [(fI.key, i), (fM.key, .map [])]) := by
    intro i hi
    refine extends_same _ (by simp only [List.map_cons, List.map_nil]; decide) (fun q hq => ?_) (fun q hq w hw => by
      simp only [List.mem_cons, List.not_mem_nil, or_false] at hq
      rcases hq with rfl | rfl <;> exact absurd (h2 _ _ hw) (by dsimp only; decide))
    simp only [List.mem_cons, List.not_mem_nil, or_false] at hq
    rcases hq with rfl | rfl
    · exact .leaf hi
    · exact .map .nil .nil
  have hd : ∀ i : Val, i.Leaf → Extends N (.obj [(fI.key, i), (fM.key, .map []), (fS.key, .list []), (fK.key, .int 7)])
      (.obj ([(fI.key, i), (fM.key, .map []), (fS.key, .list []), (fK.key, .int 7)] ++ [(fT.key, .null)])) := by
    intro i hi
    refine extends_add _ _ _ (by simp only [List.map_cons, List.map_nil, List.cons_append, List.nil_append]; decide) (fun q hq => ?_)
      (fun q hq w hw => by
        simp only [List.mem_cons, List.not_mem_nil, or_false] at hq
        rcases hq with rfl | rfl | rfl | rfl <;> exact absurd (h2 _ _ hw) (by dsimp only; decide)) h1
    simp only [List.mem_cons, List.not_mem_nil, or_false] at hq
    rcases hq with rfl | rfl | rfl | rfl
    · exact .leaf hi
    · exact .map .nil .nil
    · exact .list .nil
    · exact .leaf trivial
  have hn : ∀ i : Val, i.Leaf → Extends N (.obj [(fV.key, i), (fN.key, .null)]) (.obj [(fV.key, i), (fN.key, .null)]) := by
    intro i hi
    refine extends_same _ (by simp only [List.map_cons, List.map_nil]; decide) (fun q hq => ?_) (fun q hq w hw => by
      simp only [List.mem_cons, List.not_mem_nil, or_false] at hq
      rcases hq with rfl | rfl <;> exact absurd (h2 _ _ hw) (by dsimp only; decide))
    simp only [List.mem_cons, List.not_mem_nil, or_false] at hq
    rcases hq with rfl | rfl
    · exact .leaf hi
    · exact .leaf trivial
  intro t ht
  simp only [CostDemo.types, List.mem_cons, List.not_mem_nil, or_false] at ht
  rcases ht with rfl | rfl | rfl | rfl | rfl | rfl | rfl | rfl | rfl
  · exact ⟨hd (.int 0) trivial, hd .indet trivial⟩
  · exact ⟨hb (.int 0) trivial, hb .indet trivial⟩
  · exact ⟨hn (.int 0) trivial, hn .indet trivial⟩
  · exact ⟨.leaf trivial, .leaf trivial⟩
  · exact ⟨.leaf trivial, .leaf trivial⟩
  · exact ⟨.leaf trivial, .leaf trivial⟩
  · exact ⟨.list .nil, .list .nil⟩
  · exact ⟨.map .nil .nil, .map .nil .nil⟩
  · exact ⟨.tup (.cons (.leaf trivial) (.cons (.leaf trivial) .nil)), .tup (.cons (.leaf trivial) (.cons (.leaf trivial) .nil))⟩

theorem sameInit : SameInit Initial (· ∈ CostDemo.types) env env4 := sameInitOf ⟨rfl, rfl⟩ fun _ _ h => h.1

theorem sameOrder (N : FieldKey → Val → Prop) : SameOrder N env env4 := by
  intro t a a' b b' ha hb
  have h1 : ∀ x, stdLt a' x = stdLt a x := by
    intro x
    cases ha <;> rfl
  have h2 : ∀ x, stdLt x b' = stdLt x b := by
    intro x
    cases hb <;> first | rfl | (cases x <;> rfl)
  exact (h1 b').trans (h2 a)

theorem readable : ReadableBy (· ∈ CostDemo.types) 3 env env4 where
  highest := by
    intro c ci m _ hc hm
    match c with
    | 0 => cases hc; cases hm
    | 1 => cases hc; cases hm; decide
    | 2 => cases hc; cases hm
    | _ + 3 => cases hc
  classes := by
    intro c ci _ hc
    match c with
    | 0 => cases hc; exact ⟨base, rfl, rfl, id, fun _ _ => rfl, rfl⟩
    | 1 =>
      cases hc
      refine ⟨derived4, rfl, rfl, id, fun w hw => ?_, 4, rfl, by decide⟩
      change w ≤ 3 at hw
      have h1 : (⟨4, 0⟩ : Guard).holds w = false := by
        simp only [Guard.holds]
        simp
        omega
      simp only [derived4, derived, activeFields, List.filter_cons, List.filter_nil, h1]
      simp
    | 2 => cases hc; exact ⟨node, rfl, rfl, id, fun _ _ => rfl, rfl⟩
    | _ + 3 => cases hc

/-- any bytes read successfully as `Derived` by the program with version 3 are read by the program with version 4 as well; the new member
keeps its initial value -/
example (inp : Str) (n : Nat) (v : Val) (rs : RSt) (h : fromBinary env n 1 inp = .ok v rs) :
    ∃ v' rs', fromBinary env4 n 1 inp = .ok v' rs' ∧ Extends Initial v v' ∧ rs'.inp = rs.inp ∧
      List.Forall₂ (Extends Initial) rs.heap rs'.heap :=
  C71_newer_reads_older_fromBinary env env4 _ 3 (by rintro _ _ ⟨rfl, rfl⟩; rfl) CostDemo.closed sameInit (sameOrder _) (Nat.le_refl _)
    readable n 1 (by simp [CostDemo.types]) inp v rs h

/-- such bytes (version 3 and version 1; the former with two strings) -/
example : (match fromBinary env 5 1 [0, 0, 0, 5, 0x80, 0x83, 0x82, 0x81, 65, 0x80, 9] with | .ok _ rs => some rs.inp | _ => none) = some [9] ∧
    (match fromBinary env 5 1 [0, 0, 0, 5, 0x80, 0x81, 9] with | .ok _ rs => some rs.inp | _ => none) = some [9] := by decide +kernel

/-- what is written if `Derived` is written with version `w` -/
def written (w : Nat) (w' : Nat) (t : Ty) : Prop :=
  (w' = w ∧ (t = .cls 1 ∨ t = .cls 0 ∨ t = .vec .str ∨ t = .int .i32 ∨ t = .map false false .str (.int .i32))) ∨
    (w' = 0 ∧ (t = .str ∨ t = .int .i32 ∨ t = .pair .str (.int .i32)))

theorem writtenTypes (w : Nat) (hw : w ≠ 0) : WrittenTypes env (written w) where
  parts := by
    intro w' t h ht t' ht'
    rcases h with ⟨rfl, rfl | rfl | rfl | rfl | rfl⟩ | ⟨rfl, rfl | rfl | rfl⟩
    · exact absurd rfl (ht 1)
    · exact absurd rfl (ht 0)
    all_goals simp [binParts] at ht'
    · subst ht'; exact .inr ⟨rfl, .inl rfl⟩
    · subst ht'; exact .inr ⟨rfl, .inr (.inr rfl)⟩
    · rcases ht' with rfl | rfl
      · exact .inr ⟨rfl, .inl rfl⟩
      · exact .inr ⟨rfl, .inr (.inl rfl)⟩
  bases := by
    intro w' c ci h hc b hb
    rcases h with ⟨rfl, h | h | h | h | h⟩ | ⟨rfl, h | h | h⟩ <;> cases h
    · cases hc
      simp [derived] at hb
      subst hb
      exact .inl ⟨rfl, .inr (.inl rfl)⟩
    · cases hc; cases hb
  fields := by
    intro w' c ci h hc f hf
    rcases h with ⟨rfl, h | h | h | h | h⟩ | ⟨rfl, h | h | h⟩ <;> cases h
    · cases hc
      have he : effVersion derived.bin.version w' = w' := by simp [effVersion, derived, hw]
      rw [he] at hf ⊢
      obtain ⟨g, hg⟩ := mem_activeFields hf
      simp [derived] at hg
      rw [hg.2]
      exact .inl ⟨rfl, .inr (.inr (.inl rfl))⟩
    · cases hc
      have he : effVersion base.bin.version w' = w' := rfl
      rw [he] at hf ⊢
      obtain ⟨g, hg⟩ := mem_activeFields hf
      simp [base] at hg
      rcases hg with ⟨-, rfl⟩ | ⟨-, rfl⟩
      · exact .inl ⟨rfl, .inr (.inr (.inr (.inl rfl)))⟩
      · exact .inl ⟨rfl, .inr (.inr (.inr (.inr rfl)))⟩

theorem writesLike (w : Nat) (hw : w ≠ 0) (hw3 : w ≤ 3) : WritesLike (written w) env env4 := by
  intro w' c ci h hc
  rcases h with ⟨rfl, h | h | h | h | h⟩ | ⟨rfl, h | h | h⟩ <;> cases h
  · cases hc
    have he : effVersion derived.bin.version w' = w' := by simp [effVersion, derived, hw]
    have h1 : (⟨4, 0⟩ : Guard).holds w' = false := by
      simp only [Guard.holds]
      simp
      omega
    refine ⟨derived4, rfl, rfl, rfl, by simp [effVersion, derived4, derived, hw], ?_⟩
    rw [he]
    simp only [derived4, derived, activeFields, List.filter_cons, List.filter_nil, h1]
    simp
  · cases hc
    exact ⟨base, rfl, rfl, rfl, rfl, rfl⟩

theorem sameIteration (N : FieldKey → Val → Prop) : SameIteration N env env4 := by
  refine ⟨fun vs vs' h => ?_, fun kvs kvs' h => ?_⟩
  · exact List.rel_reverse h
  · obtain ⟨_, e, h⟩ := h.mapInv
    cases e
    exact .mkMap (List.rel_reverse h)

/-- `Derived` written with version 1, 2 or 3 by the newer program, whatever the new member is -/
example (w : Nat) (hw : w ≠ 0) (hw3 : w ≤ 3) (n : Nat) (i : Int) (s : Str) (t : Val) (ws : WSt)
    (h : toBinary env (fun _ => none) n 1 (.obj [(fI.key, .int i), (fM.key, .map []), (fS.key, .list [.str s]), (fK.key, .int 7)]) w = .ok () ws) :
    toBinary env4 (fun _ => none) n 1
      (.obj ([(fI.key, .int i), (fM.key, .map []), (fS.key, .list [.str s]), (fK.key, .int 7)] ++ [(fT.key, t)])) w = .ok () ws := by
  refine C71_newer_writes_like_older (N := Any) env env4 _ (writtenTypes w hw) (writesLike w hw hw3) (sameIteration _) _ _
    (fun _ _ h => by cases h) n 1 w (.inl ⟨rfl, .inl rfl⟩) _ _ ?_ ws h
  refine extends_add _ _ _ (by simp only [List.map_cons, List.map_nil, List.cons_append, List.nil_append]; decide) (fun q hq => ?_)
    (fun q hq w hw => by
      simp only [List.mem_cons, List.not_mem_nil, or_false] at hq
      rcases hq with rfl | rfl | rfl | rfl <;> exact absurd (show _ = fT.key from hw) (by dsimp only; decide)) rfl
  simp only [List.mem_cons, List.not_mem_nil, or_false] at hq
  rcases hq with rfl | rfl | rfl | rfl
  · exact .leaf trivial
  · exact .map .nil .nil
  · exact .list (.cons (.leaf trivial) .nil)
  · exact .leaf trivial

/-- and there are such bytes -/
example : ∃ ws, toBinary env (fun _ => none) 5 1 (.obj [(fI.key, .int 5), (fM.key, .map []), (fS.key, .list [.str [65]]), (fK.key, .int 7)]) 3 =
    .ok () ws ∧ ws.out = [0, 0, 0, 5, 0x80, 0x83, 0x81, 0x81, 65] := ⟨_, rfl, by decide⟩

/-- objects of `Derived` (older program) are representable -/
theorem derived_repr (ρ : Nat → Nat) (w : Nat) (hw : w = 2 ∨ w = 3) (p : Val) (i : Int) (s : Str) (h1 : -2 ^ 31 ≤ i) (h2 : i < 2 ^ 31)
    (hs : s.length ≤ 1000000) :
    BRepr env (fun _ => none) ρ w 0 (.cls 1) (.obj [(fI.key, p), (fM.key, .map []), (fS.key, .list []), (fK.key, .int 7)])
      (.obj [(fI.key, .int i), (fM.key, .map []), (fS.key, .list [.str s]), (fK.key, .int 7)]) := by
  have hI : BRepr env (fun _ => none) ρ w 0 (.int .i32) p (.int i) := .int _ _ _ _ .i32 (by decide) h1 h2
  have hM : BRepr env (fun _ => none) ρ w 0 (.map false false .str (.int .i32)) (.map []) (.map []) := by
    refine .map (fun q h => by cases h) (fun q h => by cases h) (fun q h => by cases h) (fun q h => by cases h) ?_ .nil (by exact .nil) .nil
      (fun q h => by cases h)
    constructor <;> intros <;> simp_all
  have hS : BRepr env (fun _ => none) ρ w w (.vec .str) (.list []) (.list [.str s]) := by
    refine .vec (show 1 ≤ 1000000 by decide) fun j v hj => ?_
    match j, hj with
    | 0, hj => cases hj; exact .str _ _ _ _ hs
  have hw0 : w ≠ 0 := by omega
  have hact : activeFields w [((⟨2, 0⟩ : Guard), fS)] = [fS] := by
    rcases hw with rfl | rfl <;> rfl
  refine .cls (Q := [(w, 0, fI), (w, 0, fM), (w, w, fS)]) ?_ rfl (show [fI.key, fM.key, fS.key, fK.key].Nodup by decide) ?_ ?_ ?_ ?_
  · have hb : FlatBin env w 0 [0] [(w, 0, fI), (w, 0, fM)] :=
      FlatBin.plain (ci := base) (bs := []) (fs := []) rfl rfl rfl (.nil _ _) (by rfl) (.nil _ _)
    have := FlatBin.versioned (ci := derived) (c := 1) (m := 3) (fs := []) w rfl rfl rfl (by rw [if_neg hw0]) (by omega) hb (by rfl) (.nil _ _)
    have e : activeFields w derived.bin.readFields = [fS] := hact
    rw [e] at this
    exact this
  · intro q hq
    simp only [List.mem_cons, List.not_mem_nil, or_false] at hq
    rcases hq with rfl | rfl | rfl <;> exact ⟨_, rfl⟩
  · intro q hq p' v hp hv
    simp only [List.mem_cons, List.not_mem_nil, or_false] at hq
    rcases hq with rfl | rfl | rfl <;> cases hp <;> cases hv
    · exact hI
    · exact hM
    · exact hS
  · intro q hq v hl
    simp only [List.mem_cons, List.not_mem_nil, or_false] at hq
    exfalso
    have : ∀ k, (List.filter (fun q' : Nat × Nat × Field => decide (q'.2.2.key = k)) [(w, 0, fI), (w, 0, fM), (w, w, fS)]).length =
        ([fI, fM, fS].filter fun f => decide (f.key = k)).length := by
      intro k
      simp only [List.filter_cons, List.filter_nil]
      repeat' split
      all_goals rfl
    rw [this] at hl
    revert hl
    rcases hq with rfl | rfl | rfl
    · show ¬ 2 ≤ ([fI, fM, fS].filter fun f => decide (f.key = fI.key)).length; decide
    · show ¬ 2 ≤ ([fI, fM, fS].filter fun f => decide (f.key = fM.key)).length; decide
    · show ¬ 2 ≤ ([fI, fM, fS].filter fun f => decide (f.key = fS.key)).length; decide
  · intro k hk
    have h1 := hk (w, 0, fI) (by simp)
    have h2 := hk (w, 0, fM) (by simp)
    have h3 := hk (w, w, fS) (by simp)
    have e1 : (k == fI.key) = false := by simpa using h1.symm
    have e2 : (k == fM.key) = false := by simpa using h2.symm
    have e3 : (k == fS.key) = false := by simpa using h3.symm
    simp only [Store.get?, List.lookup_cons, e1, e2, e3]
    refine ⟨trivial, fun v hv => ?_⟩
    cases hk : k == fK.key <;> rw [hk] at hv <;> cases hv
    rfl

/-- hypotheses of the round trips: `Derived` with version 2 or 3, written by the older program and read by the newer one … -/
example (w : Nat) (hw : w = 2 ∨ w = 3) (n : Nat) (i : Int) (s : Str) (h1 : -2 ^ 31 ≤ i) (h2 : i < 2 ^ 31) (hs : s.length ≤ 1000000) (ws : WSt)
    (h : toBinary env (fun _ => none) n 1 (.obj [(fI.key, .int i), (fM.key, .map []), (fS.key, .list [.str s]), (fK.key, .int 7)]) w = .ok () ws)
    (rest : Str) :
    ∃ ρ copy heap v' rs', GraphCopy (fun _ => none) (.obj [(fI.key, .int i), (fM.key, .map []), (fS.key, .list [.str s]), (fK.key, .int 7)])
        (fun a => heap[a]?) copy ρ ∧
      fromBinary env4 n 1 (ws.out ++ rest) = .ok v' rs' ∧ rs'.inp = rest ∧ Extends Initial copy v' ∧
      List.Forall₂ (Extends Initial) heap rs'.heap :=
  C71_newer_restores_older env env4 _ 3 (by rintro _ _ ⟨rfl, rfl⟩; rfl) CostDemo.closed sameInit (sameOrder _) (Nat.le_refl _)
    readable _ _ n n 1 (by simp [CostDemo.types]) _ w ws (fun _ _ _ h => by cases h) (fun ρ => derived_repr ρ w hw _ i s h1 h2 hs)
    (Nat.le_succ n) h rest

/-- … and the other way round -/
example (w : Nat) (hw : w = 2 ∨ w = 3) (n : Nat) (i : Int) (s : Str) (t : Val) (h1 : -2 ^ 31 ≤ i) (h2 : i < 2 ^ 31) (hs : s.length ≤ 1000000)
    (ws : WSt)
    (h : toBinary env (fun _ => none) n 1 (.obj [(fI.key, .int i), (fM.key, .map []), (fS.key, .list [.str s]), (fK.key, .int 7)]) w = .ok () ws)
    (rest : Str) :
    ∃ ws', toBinary env4 (fun _ => none) n 1
        (.obj ([(fI.key, .int i), (fM.key, .map []), (fS.key, .list [.str s]), (fK.key, .int 7)] ++ [(fT.key, t)])) w = .ok () ws' ∧
      ∃ ρ copy rs, fromBinary env n 1 (ws'.out ++ rest) = .ok copy rs ∧ rs.inp = rest ∧
        GraphCopy (fun _ => none) (.obj [(fI.key, .int i), (fM.key, .map []), (fS.key, .list [.str s]), (fK.key, .int 7)]) rs.asHeap copy ρ := by
  refine C71_older_restores_newer (N := Any) env env4 _ (writtenTypes w (by omega)) (writesLike w (by omega) (by omega)) (sameIteration _) _ _
    (fun _ _ h => by cases h) (fun _ => none) n n 1 w (.inl ⟨rfl, .inl rfl⟩) _ _ ?_ ws (fun _ _ _ h => by cases h)
    (fun ρ => derived_repr ρ w hw _ i s h1 h2 hs) (Nat.le_succ n) h rest
  refine extends_add _ _ _ (by simp only [List.map_cons, List.map_nil, List.cons_append, List.nil_append]; decide) (fun q hq => ?_)
    (fun q hq w hw => by
      simp only [List.mem_cons, List.not_mem_nil, or_false] at hq
      rcases hq with rfl | rfl | rfl | rfl <;> exact absurd (show _ = fT.key from hw) (by dsimp only; decide)) rfl
  simp only [List.mem_cons, List.not_mem_nil, or_false] at hq
  rcases hq with rfl | rfl | rfl | rfl
  · exact .leaf trivial
  · exact .map .nil .nil
  · exact .list (.cons (.leaf trivial) .nil)
  · exact .leaf trivial

def fX : Field := ⟨9, lit "x", .int .u8⟩
def fY : Field := ⟨9, lit "y", .int .u8⟩

/-- class without version having the given members -/
def plain (fs : List Field) : ClassInfo where
  qname := lit "Plain"
  json := ⟨[], fs, fs, true, true⟩
  bin := ⟨[], none, fs.map fun f => (g0, f), fs.map fun f => (g0, f), true⟩
  valInit := fs.map fun f => (f.key, .int 0)
  defInit := fs.map fun f => (f.key, .indet)

def plainEnv (fs : List Field) : Env := { env with cls := fun c => if c = 9 then some (plain fs) else env.cls c }

/-- class with the member `x` having the given version -/
def versionedEnv (v : Nat) : Env :=
  { env with cls := fun c => if c = 9 then some { plain [fX] with bin := { (plain [fX]).bin with version := some v } } else env.cls c }

/-- hypotheses of `C71_elements_use_newest_version`: a vector of such objects written by a program with version 2 -/
example : ∃ ws, write (versionedEnv 2) (fun _ => none) 5 1 (.vec (.cls 9)) (.list [.obj [(fX.key, .int 3)]]) WSt.init = .ok () ws ∧
    ∃ rs, read (versionedEnv 1) 5 0 (.vec (.cls 9)) (.list []) (RSt.init (ws.out ++ [])) = .exc (.version 2 1 (lit "Plain")) rs :=
  have h : write (versionedEnv 2) (fun _ => none) 5 1 (.vec (.cls 9)) (.list [.obj [(fX.key, .int 3)]]) WSt.init =
    .ok () ⟨[0x81, 0x82, 3], []⟩ := rfl
  ⟨_, h, C71_elements_use_newest_version (versionedEnv 1) (versionedEnv 2) _ 5 3 1 0 9 _ _ 1 2 rfl rfl rfl rfl rfl rfl rfl (by decide) _ []
    (show 0 < 1000000 by decide) _ h []⟩

end EvDemo

open EvDemo in
/-- **C71** (limit): adding a member to a class without version is a breaking change which remains undetected: the older program's class
has the member `x`, the newer program's class `x` and `y`. What the older program has written is misread by the newer program if further
data follows: the next byte is taken for `y`. At the end of the data reading fails. -/
theorem C71_unversioned_class_misread :
    ∃ ws, toBinary (plainEnv [fX]) (fun _ => none) 5 9 (.obj [(fX.key, .int 3)]) 0 = .ok () ws ∧
      (∃ rs, restoreFromBinary (plainEnv [fX, fY]) 5 9 (.obj [(fX.key, .int 0), (fY.key, .int 0)]) (ws.out ++ [5, 6]) =
        .ok (.obj [(fX.key, .int 3), (fY.key, .int 5)], 0) rs ∧ rs.inp = [6]) ∧
      ∃ rs, restoreFromBinary (plainEnv [fX, fY]) 5 9 (.obj [(fX.key, .int 0), (fY.key, .int 0)]) ws.out = .exc .eof rs :=
  ⟨⟨[3], []⟩, rfl, ⟨RSt.init [6], rfl, rfl⟩, _, rfl⟩

end Verif
