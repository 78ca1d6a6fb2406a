import Verif.Props.DeserializerReuse
import Verif.Props.BinaryFraming

/-!
# C94: recovering appended records after a crash

Records are appended to a file, each by a serializer of its own (C89), and the process (or the machine) dies at an arbitrary point: of
everything written so far (`parts.flatten`) only some prefix is in the file. What can be recovered by reading record after record?
-/

namespace Verif

/-- (only used within the proof) the conclusion of `C94_crash_recovery` -/
private def Recovers (E : Env) (n : Nat) (recs : List Record) (parts : List Str) (rs0 : RSt) : Prop :=
    ∃ k vs rs, k ≤ recs.length ∧ readSeq E n ((recs.take k).map Record.ty) rs0 = .ok vs rs ∧
      CopiesOf rs.asHeap rs0.heap.length (recs.take k) vs ∧ (∀ i, i < rs0.heap.length → rs.heap[i]? = rs0.heap[i]?) ∧
      (parts.take k).flatten ++ rs.inp = rs0.inp ∧
      ((k = recs.length ∧ rs.inp = []) ∨
        ∃ r b, recs[k]? = some r ∧ parts[k]? = some b ∧ rs.inp <+: b ∧ rs.inp.length < b.length ∧
          ∃ rs', read E n 0 r.ty (E.valInit r.ty) rs = .exc .eof rs')

private theorem recovers_cons (E : Env) (n : Nat) (r : Record) (recs : List Record) (parts : List Str) (ws : WSt) (v : Val) (ρ : Nat → Nat)
    (rs0 rs1 : RSt) (rest : Str) (e1 : read E n 0 r.ty (E.valInit r.ty) rs0 = .ok v rs1) (e2 : rs1.inp = rest)
    (e3 : FreshCopy rs0.heap.length r.heap r.value rs1.asHeap v ρ) (e4 : ∀ i, i < rs0.heap.length → rs1.heap[i]? = rs0.heap[i]?)
    (e5 : rs0.heap.length ≤ rs1.heap.length) (hi : rs0.inp = ws.out ++ rest) (h : Recovers E n recs parts rs1) :
    Recovers E n (r :: recs) (ws.out :: parts) rs0 := by
  obtain ⟨k, vs, rs, g1, g2, g3, g4, g5, g6⟩ := h
  have hlt : ∀ a, Reachable r.heap r.value a → ρ a < rs1.heap.length := by
    intro a ha
    obtain ⟨x, -, hx⟩ := e3.content a ha
    by_contra hn
    have : rs1.heap[ρ a]? = none := List.getElem?_eq_none (Nat.le_of_not_lt hn)
    simp only [RSt.asHeap] at hx
    rw [this] at hx
    cases hx
  refine ⟨k + 1, v :: vs, rs, Nat.succ_le_succ g1, ?_, ?_, ?_, ?_, ?_⟩
  · simp only [List.take_succ_cons, List.map_cons, readSeq]
    rw [M.bind_ok e1, M.bind_ok g2]
    rfl
  · refine .cons (hi := rs1.heap.length) ⟨ρ, ⟨e3.root, e3.inj, fun a ha => ?_⟩, fun a ha => ⟨e3.fresh a ha, hlt a ha⟩⟩ g3
    obtain ⟨x, f1, f2⟩ := e3.content a ha
    refine ⟨x, f1, ?_⟩
    simp only [RSt.asHeap] at f2 ⊢
    rw [g4 _ (hlt a ha), f2]
  · intro i hi'
    rw [g4 i (Nat.lt_of_lt_of_le hi' e5), e4 i hi']
  · rw [List.take_succ_cons, List.flatten_cons, List.append_assoc, g5, e2, hi]
  · rcases g6 with ⟨g6, g7⟩ | g6
    · exact .inl ⟨by rw [g6, List.length_cons], g7⟩
    · exact .inr (by simpa using g6)

/-- **C94**: wherever the file has been cut, reading record by record with one deserializer (in any state) restores all records which are
completely in the file; the next read (if there is a next record) throws "end of file" - there is never a record which is restored
wrongly, or partially, or skipped. The input which is left after the complete records is what is left of the incomplete one: the
position where the file is to be truncated. -/
theorem C94_crash_recovery (E : Env) (n : Nat) (recs : List Record) (parts : List Str) (hok : ∀ r ∈ recs, r.Ok E)
    (hw : List.Forall₂ (Record.WrittenAs E n) recs parts) (rs0 : RSt) (hcut : rs0.inp <+: parts.flatten) :
    ∃ k vs rs, k ≤ recs.length ∧ readSeq E n ((recs.take k).map Record.ty) rs0 = .ok vs rs ∧
      CopiesOf rs.asHeap rs0.heap.length (recs.take k) vs ∧ (∀ i, i < rs0.heap.length → rs.heap[i]? = rs0.heap[i]?) ∧
      (parts.take k).flatten ++ rs.inp = rs0.inp ∧
      ((k = recs.length ∧ rs.inp = []) ∨
        ∃ r b, recs[k]? = some r ∧ parts[k]? = some b ∧ rs.inp <+: b ∧ rs.inp.length < b.length ∧
          ∃ rs', read E n 0 r.ty (E.valInit r.ty) rs = .exc .eof rs') := by
  induction hw generalizing rs0 with
  | nil => exact ⟨0, [], rs0, Nat.le_refl _, rfl, .nil _, fun _ _ => rfl, rfl, .inl ⟨rfl, by simpa using hcut⟩⟩
  | @cons r b recs parts hr hrest ih =>
    obtain ⟨ws, hws, rfl⟩ := hr
    obtain ⟨h1, h2⟩ := hok r List.mem_cons_self
    have hpair := (pair_all (h1 (numberingFrom rs0.heap.length ws.seen)) n).1 0 0 r.ty _ r.value (h2 _)
    obtain ⟨tail, htail⟩ := hcut
    rw [List.flatten_cons] at htail
    rcases List.append_eq_append_iff.1 htail with ⟨d, hd1, hd2⟩ | ⟨d, hd1, hd2⟩
    · by_cases hd : d = []
      · -- exactly at the end of the record
        subst hd
        rw [List.append_nil] at hd1
        obtain ⟨rs1, e1, e2, e3, e4, e5⟩ := freshCopy_of (rest := []) hpair hws (by rw [hd1, List.append_nil])
        exact recovers_cons E n r recs parts ws _ _ rs0 rs1 [] e1 e2 e3 e4 e5 (by rw [hd1, List.append_nil])
          (ih (fun r' hr' => hok r' (List.mem_cons_of_mem _ hr')) rs1 (by rw [e2]; exact List.nil_prefix))
      · -- within the record
        obtain ⟨rs1, e1, e2, -⟩ := freshCopy_of (rs0 := rs0.withInput ws.out) (rest := []) hpair hws (by simp [RSt.withInput])
        have hpos : 0 < d.length := List.length_pos_iff.2 hd
        obtain ⟨rs', hx⟩ := C31_truncated_input_throws E n 0 r.ty _ _ _ _ e1 rs0.inp d hd1 (by rw [e2]; simpa using hpos)
        refine ⟨0, [], rs0, Nat.zero_le _, rfl, .nil _, fun _ _ => rfl, rfl,
          .inr ⟨r, ws.out, rfl, rfl, ⟨d, hd1.symm⟩, by rw [hd1, List.length_append]; omega, rs', hx⟩⟩
    · obtain ⟨rs1, e1, e2, e3, e4, e5⟩ := freshCopy_of (rest := d) hpair hws hd1
      exact recovers_cons E n r recs parts ws _ _ rs0 rs1 d e1 e2 e3 e4 e5 hd1
        (ih (fun r' hr' => hok r' (List.mem_cons_of_mem _ hr')) rs1 (by rw [e2]; exact ⟨tail, hd2.symm⟩))

private theorem framed_readSeq (E : Env) (n : Nat) (ts : List Ty) : Framed (List Val) (readSeq E n ts) := by
  induction ts with
  | nil => exact framed_closed.pure _
  | cons t ts ih =>
    exact framed_closed.bind _ _ (framed_closed.read E n 0 t _) fun _ => framed_closed.bind _ _ ih fun _ => framed_closed.pure _

/-- **C94**: … and then appending works again. Some records of the file which has been cut have been read successfully (`k` of them); the
file is truncated to what has been read (i.e. what is left in the stream is removed) and further records are appended. Then everything is
restored: the records read after the crash and those appended afterwards, again with no objects shared between different records. -/
theorem C94_append_after_recovery (E : Env) (n : Nat) (recs : List Record) (parts : List Str) (hok : ∀ r ∈ recs, r.Ok E)
    (hw : List.Forall₂ (Record.WrittenAs E n) recs parts) (rs0 : RSt) (hcut : rs0.inp <+: parts.flatten)
    (k : Nat) (vs : List Val) (rs : RSt) (hread : readSeq E n ((recs.take k).map Record.ty) rs0 = .ok vs rs)
    (recs' : List Record) (parts' : List Str) (hok' : ∀ r ∈ recs', r.Ok E) (hw' : List.Forall₂ (Record.WrittenAs E n) recs' parts')
    (rs1 : RSt) (hi : rs1.inp = rs0.inp.take (rs0.inp.length - rs.inp.length) ++ parts'.flatten) :
    ∃ vs' rs', readSeq E n ((recs.take k ++ recs').map Record.ty) rs1 = .ok vs' rs' ∧ rs'.inp = [] ∧
      CopiesOf rs'.asHeap rs1.heap.length (recs.take k ++ recs') vs' := by
  have hokk : ∀ r ∈ recs.take k, r.Ok E := fun r hr => hok r (List.mem_of_mem_take hr)
  have hwk : List.Forall₂ (Record.WrittenAs E n) (recs.take k) (parts.take k) := List.forall₂_take k hw
  -- what has been consumed are the complete records
  have hused : rs0.inp.take (rs0.inp.length - rs.inp.length) = (parts.take k).flatten := by
    obtain ⟨tail, ht⟩ := hcut
    obtain ⟨used, h1, h2, -⟩ := framed_readSeq E n _ _ _ _ hread
    obtain ⟨ws, qs, g1, g2, -⟩ := C89_appended_records E n _ _ hokk hwk (rs0.withInput parts.flatten) (parts.drop k).flatten
      (by rw [← List.flatten_append, List.take_append_drop]; rfl)
    have h3 := h2 (rs.inp ++ tail)
    rw [← List.append_assoc, ← h1, ht, g1] at h3
    injection h3 with h3 h4
    have h5 : (parts.drop k).flatten = rs.inp ++ tail := by rw [← g2, h4]; rfl
    have h6 : (parts.take k).flatten ++ (parts.drop k).flatten = parts.flatten := by rw [← List.flatten_append, List.take_append_drop]
    rw [h5, ← ht, h1, ← List.append_assoc] at h6
    have h7 := List.append_cancel_right (List.append_cancel_right h6)
    rw [h7, h1, List.length_append, Nat.add_sub_cancel]
    exact List.take_left
  obtain ⟨vs', rs', f1, f2, f3, -⟩ := C89_appended_records E n (recs.take k ++ recs') (parts.take k ++ parts')
    (fun r hr => (List.mem_append.1 hr).elim (hokk r) (hok' r)) (List.rel_append hwk hw') rs1 []
    (by rw [hi, hused, List.flatten_append, List.append_nil])
  exact ⟨vs', rs', f1, f2, f3⟩

namespace Demo

theorem reuseRecords_ok : ∀ r ∈ reuseRecords, r.Ok env := by
  intro r hr
  simp only [reuseRecords, List.mem_cons, List.not_mem_nil, or_false] at hr
  rcases hr with rfl | rfl
  · exact ⟨cycHeap_repr, fun ρ => .sptrSome rfl (by decide)⟩
  · exact ⟨selfHeap_repr, fun ρ => .sptrSome rfl (by decide)⟩

theorem reuseRecords_written : List.Forall₂ (Record.WrittenAs env 10) reuseRecords reuseParts := by
  refine .cons ⟨⟨_, [2000, 1000]⟩, ?_, rfl⟩ (.cons ⟨⟨_, [1000]⟩, ?_, rfl⟩ .nil)
  · decide +kernel
  · decide +kernel

/-- Every cut of the file with the two records (of 27 bytes) meets the hypotheses of `C94_crash_recovery`. -/
example (len : Nat) (table : List (Nat × Ty × Nat)) (heap : List Val) :=
  C94_crash_recovery env 10 reuseRecords reuseParts reuseRecords_ok reuseRecords_written ⟨reuseParts.flatten.take len, table, heap⟩
    (List.take_prefix _ _)

/-- computed, with the second record cut after its fourth byte: the first record is there, four bytes are left, and reading on throws -/
example : (match readSeq env 10 [.sptr (.cls 2)] ⟨reuseParts.flatten.take 21, [], []⟩ with
    | .ok vs s => some (Val.refsL vs, s.heap.map Val.refs, s.inp, match read env 10 0 (.sptr (.cls 2)) .null s with | .exc .eof _ => true | _ => false)
    | _ => none) = some ([0], [[1], [0]], [1, 0x43, 0xE8, 0], true) := by decide +kernel

/-- … and after truncating the file to 17 bytes and appending the second record again, both are there. -/
example (rs : RSt) (vs : List Val) (h : readSeq env 10 [.sptr (.cls 2)] ⟨reuseParts.flatten.take 21, [], []⟩ = .ok vs rs) (rs1 : RSt)
    (hi : rs1.inp = (reuseParts.flatten.take 21).take (21 - rs.inp.length) ++ (reuseParts.drop 1).flatten) :
    ∃ vs' rs', readSeq env 10 [.sptr (.cls 2), .sptr (.cls 2)] rs1 = .ok vs' rs' ∧ rs'.inp = [] ∧
      CopiesOf rs'.asHeap rs1.heap.length reuseRecords vs' :=
  C94_append_after_recovery env 10 reuseRecords reuseParts reuseRecords_ok reuseRecords_written ⟨reuseParts.flatten.take 21, [], []⟩
    (List.take_prefix _ _) 1 vs rs h (reuseRecords.drop 1) (reuseParts.drop 1)
    (fun r hr => reuseRecords_ok r (List.mem_of_mem_drop hr)) (List.forall₂_drop 1 reuseRecords_written) rs1 hi

/-- Truncating is necessary: if a record is appended to a file which ends with an incomplete one, then the incomplete record is completed
by bytes of the appended one - here a string of five bytes cut after two of them, followed by the string "xyz" - and what follows is
interpreted from a wrong position on. Nothing is thrown until the end of the file. -/
example : (match readSeq env 10 [.str] ⟨[0x85, 104, 101] ++ [0x83, 120, 121, 122], [], []⟩ with
    | .ok [.str d] s => some (d, s.inp)
    | _ => none) = some ([104, 101, 0x83, 120, 121], [122]) := by decide +kernel

end Demo

end Verif
