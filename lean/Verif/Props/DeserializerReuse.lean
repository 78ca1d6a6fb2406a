import Verif.Props.BinaryRoundTrip
import Verif.Props.BinaryPointers
import Mathlib.Data.List.Forall2

/-!
# C89: one `BinaryDeserializer` for the output of several serializers

A `BinaryDeserializer` keeps the shared objects it has read (in `m_pointer`) as long as it lives. It is usual to append records to a
file, each written by its own `BinarySerializer` (or `toBinary` call), and to read the file with one deserializer - identifiers of
different records may coincide then. What has been read before (including what has been read by calls which threw) has no influence.
-/

namespace Verif

/-- `GraphCopy` where all copies are objects which are not among the first `n` of the heap -/
structure FreshCopy (n : Nat) (H : Heap) (v : Val) (H' : Heap) (v' : Val) (ρ : Nat → Nat) : Prop extends GraphCopy H v H' v' ρ where
  fresh : ∀ a, Reachable H v a → n ≤ ρ a

/-- numbers objects in the order in which they have been written, beginning with `base` -/
def numberingFrom (base : Nat) (seen : List Nat) : Nat → Nat := fun a => base + seen.reverse.idxOf a

variable {E : Env} {H : Heap} {HT : Nat → Option Ty}

theorem freshCopy_of {w : WM Unit} {α : Type} {r : RM α} {a : α} {v : Val} {ws : WSt} {rest : Str} {rs0 : RSt}
    (h : Pair H HT (numberingFrom rs0.heap.length ws.seen) w r a (· ∈ v.refs)) (hw : w WSt.init = .ok () ws)
    (hi : rs0.inp = ws.out ++ rest) :
    ∃ rs, r rs0 = .ok a rs ∧ rs.inp = rest ∧
      FreshCopy rs0.heap.length H v rs.asHeap (v.rename (numberingFrom rs0.heap.length ws.seen)) (numberingFrom rs0.heap.length ws.seen) ∧
      (∀ i, i < rs0.heap.length → rs.heap[i]? = rs0.heap[i]?) ∧ rs0.heap.length ≤ rs.heap.length := by
  obtain ⟨-, bytes, h2, h3⟩ := h _ _ hw
  have h2 : ws.out = bytes := h2
  have hag : Agrees rs0.heap.length (numberingFrom rs0.heap.length ws.seen) ws.seen := fun _ _ => rfl
  have hc : Corr rs0.heap.length HT WSt.init.seen rs0 := ⟨List.nodup_nil, rfl, fun _ h => by cases h⟩
  obtain ⟨h4, rs, h5, h6, h7, hold, h8⟩ := h3 hag rs0 rest (by rw [hi, h2]) hc
  have hseen : ∀ b, Reachable H v b → b ∈ ws.seen := by
    intro b hb
    induction hb with
    | direct ha => exact h4 _ ha
    | step _ hx hb ih =>
      obtain ⟨x', e1, -, e3⟩ := h8 _ ih (by simp [WSt.init])
      rw [hx] at e1
      cases e1
      exact e3 _ hb
  refine ⟨rs, h5, h6, ⟨⟨rfl, fun b c hb hc he => hag.inj (hseen b hb) (hseen c hc) he, fun b hb => ?_⟩, fun b hb => ?_⟩, hold, ?_⟩
  · obtain ⟨x, e1, e2, -⟩ := h8 b (hseen b hb) (by simp [WSt.init])
    exact ⟨x, e1, e2⟩
  · exact Nat.le_add_right _ _
  · rw [h7.len]; exact Nat.le_add_right _ _

/-- **C89**: data written by a new serializer is restored by a deserializer in *any* state - whatever it has read before, whatever
identifiers it knows and whether or not previous calls threw. The result is a copy of the object graph which consists of new objects
only; the objects read before are not modified. -/
theorem C89_any_deserializer (E : Env) (H : Heap) (HT : Nat → Option Ty) (n m vw vr : Nat) (t : Ty) (p v : Val) (ws : WSt)
    (hH : ∀ ρ, HeapRepr E H HT ρ) (hv : ∀ ρ, BRepr E HT ρ vw vr t p v) (hm : n ≤ m)
    (hw : write E H n vw t v WSt.init = .ok () ws) (rs0 : RSt) (rest : Str) (hi : rs0.inp = ws.out ++ rest) :
    ∃ ρ v' rs, read E m vr t p rs0 = .ok v' rs ∧ rs.inp = rest ∧ FreshCopy rs0.heap.length H v rs.asHeap v' ρ ∧
      (∀ i, i < rs0.heap.length → rs.heap[i]? = rs0.heap[i]?) := by
  obtain ⟨rs, h1, h2, h3, h4, -⟩ := freshCopy_of ((pair_all (hH (numberingFrom rs0.heap.length ws.seen)) n).1 vw vr t p v (hv _)) hw hi
  exact ⟨_, _, rs, read_mono hm h1 (by simp), h2, h3, h4⟩

/-! ## Records appended to each other -/

/-- something written by a serializer of its own: the objects which existed at that time, their types, and the value written -/
structure Record where
  heap : Heap
  types : Nat → Option Ty
  ty : Ty
  value : Val

/-- the record is representable -/
def Record.Ok (E : Env) (r : Record) : Prop :=
  (∀ ρ, HeapRepr E r.heap r.types ρ) ∧ ∀ ρ, BRepr E r.types ρ 0 0 r.ty (E.valInit r.ty) r.value

/-- a new serializer writes the record as `bytes` -/
def Record.WrittenAs (E : Env) (n : Nat) (r : Record) (bytes : Str) : Prop :=
  ∃ ws, write E r.heap n 0 r.ty r.value WSt.init = .ok () ws ∧ ws.out = bytes

/-- `v'` is, on heap `H'`, a copy of the record consisting of objects with numbers in `[lo, hi)` -/
def Record.CopiedAs (r : Record) (H' : Heap) (lo hi : Nat) (v' : Val) : Prop :=
  ∃ ρ, GraphCopy r.heap r.value H' v' ρ ∧ ∀ a, Reachable r.heap r.value a → lo ≤ ρ a ∧ ρ a < hi

/-- the values are copies of the records, and the objects of different records are different: `at` is where the copies of the objects of
the first record begin -/
inductive CopiesOf (H' : Heap) : Nat → List Record → List Val → Prop
  | nil (lo) : CopiesOf H' lo [] []
  | cons {lo hi r rs v vs} : r.CopiedAs H' lo hi v → CopiesOf H' hi rs vs → CopiesOf H' lo (r :: rs) (v :: vs)

/-- **C89**: a file to which records have been appended, each by a serializer of its own, is restored by *one* deserializer (in any
state): reading consecutively yields copies of all the records, no object is shared between different records or with what has been read
before, and what has been read before is not modified. -/
theorem C89_appended_records (E : Env) (n : Nat) (recs : List Record) (parts : List Str) (hok : ∀ r ∈ recs, r.Ok E)
    (hw : List.Forall₂ (Record.WrittenAs E n) recs parts) (rs0 : RSt) (rest : Str) (hi : rs0.inp = parts.flatten ++ rest) :
    ∃ vs rs, readSeq E n (recs.map Record.ty) rs0 = .ok vs rs ∧ rs.inp = rest ∧ CopiesOf rs.asHeap rs0.heap.length recs vs ∧
      (∀ i, i < rs0.heap.length → rs.heap[i]? = rs0.heap[i]?) ∧ rs0.heap.length ≤ rs.heap.length := by
  induction hw generalizing rs0 with
  | nil => exact ⟨[], rs0, rfl, by simpa using hi, .nil _, fun _ _ => rfl, Nat.le_refl _⟩
  | @cons r b recs parts hr _ ih =>
    obtain ⟨ws, hws, rfl⟩ := hr
    obtain ⟨h1, h2⟩ := hok r List.mem_cons_self
    obtain ⟨rs1, e1, e2, e3, e4, e5⟩ := freshCopy_of (rest := parts.flatten ++ rest)
      ((pair_all (h1 (numberingFrom rs0.heap.length ws.seen)) n).1 0 0 r.ty _ r.value (h2 _)) hws
      (by rw [hi, List.flatten_cons, List.append_assoc])
    obtain ⟨vs, rs, f1, f2, f3, f4, f5⟩ := ih (fun r' hr' => hok r' (List.mem_cons_of_mem _ hr')) rs1 e2
    have hlt : ∀ a, Reachable r.heap r.value a → numberingFrom rs0.heap.length ws.seen a < rs1.heap.length := by
      intro a ha
      obtain ⟨x, -, hx⟩ := e3.content a ha
      by_contra hn
      have : rs1.heap[numberingFrom rs0.heap.length ws.seen a]? = none := List.getElem?_eq_none (Nat.le_of_not_lt hn)
      simp only [RSt.asHeap] at hx
      rw [this] at hx
      cases hx
    refine ⟨_, rs, ?_, f2, .cons (hi := rs1.heap.length) ⟨_, ⟨rfl, e3.inj, fun a ha => ?_⟩, fun a ha => ⟨e3.fresh a ha, hlt a ha⟩⟩ f3,
      fun i hi' => ?_, e5.trans f5⟩
    · simp only [List.map_cons, readSeq]
      rw [M.bind_ok e1, M.bind_ok f1]
      rfl
    · obtain ⟨x, g1, g2⟩ := e3.content a ha
      refine ⟨x, g1, ?_⟩
      simp only [RSt.asHeap] at g2 ⊢
      rw [f4 _ (hlt a ha), g2]
    · rw [f4 i (Nat.lt_of_lt_of_le hi' e5), e4 i hi']

/-- **C89**, the limit: this holds for data of *new* serializers. A reference (as written by a serializer which has written the object
before, i.e. into something this deserializer has not read) resolves to whatever the deserializer has read last with that identifier and
type: an unrelated object, without any error. -/
theorem C89_limit_stale_identifier (E : Env) (H : Heap) (n version version' : Nat) (t : Ty) (p : Val) (a : Nat) (ha : a < 2 ^ 64) (ws : WSt)
    (hs : a ∈ ws.seen) :
    ∃ bytes, write E H (n + 1) version (.sptr t) (.ref a) ws = .ok () { ws with out := ws.out ++ bytes } ∧
      ∀ (rs0 : RSt) (rest : Str) (old : Nat), rs0.inp = bytes ++ rest → rs0.table.lookup a = some (t, old) →
        read E (n + 1) version' (.sptr t) p rs0 = .ok (.ref old) { rs0 with inp := rest } := by
  obtain ⟨bs, -, h1, h2⟩ := C34_later_occurrence E H n version version' t p a ha ws hs
  exact ⟨_, h1, fun rs0 rest old hi hl => h2 rs0 rest old hi hl⟩

namespace Demo

/-- other nodes which (in another process) have the same addresses: node 1000 refers to itself -/
def selfHeap : Heap := fun a => match a with
  | 1000 => some (.obj [(fV.key, .int 7), (fN.key, .ref 1000)])
  | 2000 => some (.obj [(fV.key, .int 8), (fN.key, .ref 1000)])
  | _ => none

theorem selfHeap_repr (ρ : Nat → Nat) : HeapRepr env selfHeap cycTypes ρ := by
  intro a t h
  unfold cycTypes at h
  split at h
  · cases h
    exact ⟨_, rfl, node_repr ρ _ _ _ _ _ (by decide) (by decide) rfl (by decide)⟩
  · cases h
    exact ⟨_, rfl, node_repr ρ _ _ _ _ _ (by decide) (by decide) rfl (by decide)⟩
  · cases h

def reuseRecords : List Record := [⟨cycHeap, cycTypes, .sptr (.cls 2), .ref 1000⟩, ⟨selfHeap, cycTypes, .sptr (.cls 2), .ref 1000⟩]

def reuseParts : List Str :=
  [[1, 0x43, 0xE8, 0, 0, 0, 1, 1, 0x47, 0xD0, 0, 0, 0, 2, 2, 0x43, 0xE8], [1, 0x43, 0xE8, 0, 0, 0, 7, 2, 0x43, 0xE8]]

/-- Two records which use the same identifier for different objects meet the hypotheses of `C89_appended_records`, whatever the
deserializer has done before. -/
example (table : List (Nat × Ty × Nat)) (heap : List Val) :
    ∃ vs rs, readSeq env 10 [.sptr (.cls 2), .sptr (.cls 2)] ⟨reuseParts.flatten ++ [9], table, heap⟩ = .ok vs rs ∧ rs.inp = [9] ∧
      CopiesOf rs.asHeap heap.length reuseRecords vs ∧ (∀ i, i < heap.length → rs.heap[i]? = heap[i]?) ∧ heap.length ≤ rs.heap.length := by
  refine C89_appended_records env 10 reuseRecords reuseParts ?_ ?_ ⟨_, table, heap⟩ [9] rfl
  · intro r hr
    simp only [reuseRecords, List.mem_cons, List.not_mem_nil, or_false] at hr
    rcases hr with rfl | rfl
    · exact ⟨cycHeap_repr, fun ρ => .sptrSome rfl (by decide)⟩
    · exact ⟨selfHeap_repr, fun ρ => .sptrSome rfl (by decide)⟩
  · refine .cons ⟨⟨_, [2000, 1000]⟩, ?_, rfl⟩ (.cons ⟨⟨_, [1000]⟩, ?_, rfl⟩ .nil)
    · decide +kernel
    · decide +kernel

/-- the same, computed: the deserializer has read an object with identifier 1000 before, and failed to read another one -/
example : (match readSeq env 10 [.sptr (.cls 2), .sptr (.cls 2)] ⟨reuseParts.flatten ++ [9], [(1000, .cls 2, 0), (2000, .str, 1)], [.null, .str []]⟩ with
    | .ok vs s => some (Val.refsL vs, s.heap.map Val.refs, s.inp)
    | _ => none) = some ([2, 4], [[], [], [3], [2], [4]], [9]) := by decide +kernel

/-- the limit: what a serializer writes which has written node 1000 elsewhere -/
example : ∃ bytes, write env cycHeap 10 0 (.sptr (.cls 2)) (.ref 1000) ⟨[], [1000]⟩ = .ok () ⟨[] ++ bytes, [1000]⟩ ∧
    read env 10 0 (.sptr (.cls 2)) .null ⟨bytes ++ [9], [(1000, .cls 2, 0)], [.obj [(fV.key, .int 5), (fN.key, .null)]]⟩ =
      .ok (.ref 0) ⟨[9], [(1000, .cls 2, 0)], [.obj [(fV.key, .int 5), (fN.key, .null)]]⟩ := by
  obtain ⟨bytes, h1, h2⟩ := C89_limit_stale_identifier env cycHeap 9 0 0 (.cls 2) .null 1000 (by decide) ⟨[], [1000]⟩ (by simp)
  exact ⟨bytes, h1, h2 _ _ _ rfl rfl⟩

end Demo

end Verif
