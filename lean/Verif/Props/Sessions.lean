import Verif.Spec.Sessions
import Verif.Lemmas.BinWClosed
import Verif.Lemmas.BinSize
import Verif.Props.BinaryRoundTrip
import Verif.Props.BinaryPointers
import Verif.Props.BinaryOnce

/-!
# C79: sessions of a `BinarySerializer` during which objects change
-/

namespace Verif

/-! ## Lemmas -/

/-- If `m` succeeds and the heaps agree on the objects `m` records then `m'` does the same. -/
def SameIfRecorded (H H' : Heap) (α : Type) (m m' : WM α) : Prop :=
  Appends α m ∧ ∀ s a s', m s = .ok a s' → (∀ x ∈ s'.seen, x ∉ s.seen → H x = H' x) → m' s = .ok a s'

theorem sameIfRecorded_closed (H H' : Heap) : WClosed3 H H' (Appends Unit) (SameIfRecorded H H') where
  pure a := ⟨.pure a, fun _ _ _ h _ => h⟩
  ub := ⟨fun _ => trivial, fun _ _ _ h _ => h⟩
  stuck := ⟨fun _ => trivial, fun _ _ _ h _ => h⟩
  fuel := ⟨fun _ => trivial, fun _ _ _ h _ => h⟩
  throw e := ⟨.throw e, fun _ _ _ h _ => h⟩
  bind m m' f f' hm hf := by
    refine ⟨hm.1.bind fun a => (hf a).1, fun s b s' h hx => ?_⟩
    obtain ⟨a, s1, h1, h2⟩ := M.bind_eq_ok.1 h
    have e1 := hm.1.ok h1
    have e2 := (hf a).1.ok h2
    rw [M.bind_ok (hm.2 s a s1 h1 fun x hx1 hn => hx x (e2.2.subset hx1) hn)]
    exact (hf a).2 s1 b s' h2 fun x hx1 hn => hx x hx1 fun hs => hn (e1.2.subset hs)
  emit bs := ⟨.emit bs, fun _ _ _ h _ => h⟩
  shared a b b' hg hb := by
    refine ⟨.shared a hg, fun s u s' h hx => ?_⟩
    unfold sharedWrite at h ⊢
    obtain ⟨w, s1, h1, h⟩ := M.bind_eq_ok.1 h
    obtain ⟨u2, s2, h2, h⟩ := M.bind_eq_ok.1 h
    obtain ⟨u3, s3, h3, h⟩ := M.bind_eq_ok.1 h
    rw [M.bind_ok h1, M.bind_ok h2, M.bind_ok h3]
    have q1 : s1 = s := by cases h1; rfl
    have q2 : s2.seen = s1.seen := by cases h2; rfl
    have q3 : s3.seen = s2.seen := writeId_seen h3
    have hww : w = decide (a ∈ s.seen) := by cases h1; rfl
    by_cases hw : w = true
    · rw [if_pos hw] at h ⊢
      exact h
    · rw [if_neg hw] at h ⊢
      obtain ⟨u4, s4, h4, h⟩ := M.bind_eq_ok.1 h
      rw [M.bind_ok h4]
      have q4 : s4.seen = a :: s3.seen := by cases h4; rfl
      have hna : a ∉ s.seen := by
        intro hm
        exact hw (by rw [hww]; exact decide_eq_true hm)
      have he : H a = H' a := hx a ((hg.ok h).2.subset (by rw [q4]; exact List.mem_cons_self)) hna
      refine (hb he).2 s4 u s' h fun x hx1 hn => hx x hx1 fun hs => hn ?_
      rw [q4, q3, q2, q1]
      exact List.mem_cons_of_mem _ hs

/-- What a successful call writes depends only on the contents of the objects it records. -/
theorem write_congr_recorded {E : Env} {H H' : Heap} {n w : Nat} {t : Ty} {v : Val} {s s' : WSt}
    (h : write E H n w t v s = .ok () s') (hx : ∀ a ∈ s'.seen, a ∉ s.seen → H a = H' a) : write E H' n w t v s = .ok () s' :=
  ((sameIfRecorded_closed H H').write E (fun _ => trivial) n (fun m _ w t v => write_appends E H m w t v) w t v).2 s () s' h hx

theorem writeCalls_appends (E : Env) (n : Nat) (cs : List Call) : Appends Unit (writeCalls E n cs) := by
  induction cs with
  | nil => exact .pure _
  | cons c cs ih => exact .bind (write_appends E c.heap n 0 c.ty c.value) fun _ => ih

theorem FirstContents.congr {E : Env} {n : Nat} {s : WSt} {cs : List Call} {F F' : Heap} {ws : WSt} (h : FirstContents E n s cs F)
    (hw : writeCalls E n cs s = .ok () ws) (hf : ∀ a ∈ ws.seen, a ∉ s.seen → F' a = F a) : FirstContents E n s cs F' := by
  induction h with
  | nil => exact .nil _ _
  | cons h1 h2 h3 ih =>
    obtain ⟨u, s1, hw1, hw2⟩ := M.bind_eq_ok.1 (show (write _ _ _ _ _ _ >>= fun _ => writeCalls E n _) _ = _ from hw)
    rw [h1] at hw1
    cases hw1
    have e1 := (write_appends E _ n 0 _ _).ok h1
    have e2 := (writeCalls_appends E n _).ok hw2
    exact .cons h1 (fun a ha hn => (hf a (e2.2.subset ha) hn).trans (h2 a ha hn))
      (ih hw2 fun a ha hn => hf a ha fun hs => hn (e1.2.subset hs))

/-! ## The theorems -/

/-- **C79**: for every successful session there is "the content each object had when it was first written", and it is unique for the
objects written by the session. -/
theorem C79_first_contents_exist (E : Env) (n : Nat) (cs : List Call) (s ws : WSt) (hw : writeCalls E n cs s = .ok () ws) :
    ∃ F, FirstContents E n s cs F ∧ ∀ F', FirstContents E n s cs F' ↔ ∀ a ∈ ws.seen, a ∉ s.seen → F' a = F a := by
  suffices h : (∃ F, FirstContents E n s cs F) ∧
      ∀ F F', FirstContents E n s cs F → FirstContents E n s cs F' → ∀ a ∈ ws.seen, a ∉ s.seen → F' a = F a by
    obtain ⟨⟨F, hF⟩, hu⟩ := h
    exact ⟨F, hF, fun F' => ⟨fun h => hu F F' hF h, fun h => hF.congr hw h⟩⟩
  induction cs generalizing s with
  | nil =>
    cases hw
    exact ⟨⟨fun _ => none, .nil _ _⟩, fun _ _ _ _ a ha hn => absurd ha hn⟩
  | cons c cs ih =>
    obtain ⟨u, s1, h1, h2⟩ := M.bind_eq_ok.1 (show (write E c.heap n 0 c.ty c.value >>= fun _ => writeCalls E n cs) s = _ from hw)
    obtain ⟨⟨F, hF⟩, hu⟩ := ih s1 h2
    have e1 := (write_appends E c.heap n 0 c.ty c.value).ok h1
    constructor
    · classical
      refine ⟨fun a => if a ∈ s1.seen then c.heap a else F a, .cons h1 (fun a ha _ => if_pos ha) ?_⟩
      exact hF.congr h2 fun a _ hn => if_neg hn
    · intro F F' h h' a ha hn
      cases h with
      | cons g1 g2 g3 =>
        cases h' with
        | cons k1 k2 k3 =>
          rw [h1] at g1 k1
          cases g1
          cases k1
          by_cases hm : a ∈ s1.seen
          · rw [g2 a hm hn, k2 a hm hn]
          · exact hu F F' g3 k3 a ha hm

/-- **C79**: the bytes written by a session, during which objects may be changed, deleted and created between the calls, are the bytes
which would be written if every object had, all the time, the content it had when the session wrote it first. -/
theorem C79_session_writes_first_contents (E : Env) (n : Nat) (cs : List Call) (s : WSt) (F : Heap) (h : FirstContents E n s cs F) :
    writeCalls E n cs s = writeSeq E F n (cs.map fun c => (c.ty, c.value)) s ∧ ∃ ws, writeCalls E n cs s = .ok () ws := by
  induction h with
  | nil => exact ⟨rfl, _, rfl⟩
  | cons h1 h2 h3 ih =>
    have := write_congr_recorded h1 fun a ha hn => (h2 a ha hn).symm
    refine ⟨?_, ?_⟩
    · show (write _ _ _ _ _ _ >>= fun _ => writeCalls _ _ _) _ = (write _ _ _ _ _ _ >>= fun _ => writeSeq _ _ _ _) _
      rw [M.bind_ok h1, M.bind_ok this]
      exact ih.1
    · obtain ⟨ws, hw⟩ := ih.2
      refine ⟨ws, ?_⟩
      show (write _ _ _ _ _ _ >>= fun _ => writeCalls _ _ _) _ = _
      rw [M.bind_ok h1]
      exact hw

/-- **C79**: objects which do not change while they are used by the session are written as they are: if every heap agrees with `H` on the
objects written by the session then the session writes what it would write for the unchanging heap `H`. -/
theorem C79_unchanged_objects (E : Env) (H : Heap) (n : Nat) (cs : List Call) (s ws : WSt) (hw : writeCalls E n cs s = .ok () ws)
    (hc : ∀ c ∈ cs, ∀ a ∈ ws.seen, c.heap a = H a) :
    FirstContents E n s cs H ∧ writeSeq E H n (cs.map fun c => (c.ty, c.value)) s = .ok () ws := by
  have hf : FirstContents E n s cs H := by
    induction cs generalizing s with
    | nil => exact .nil _ _
    | cons c cs ih =>
      obtain ⟨u, s1, h1, h2⟩ := M.bind_eq_ok.1 (show (write E c.heap n 0 c.ty c.value >>= fun _ => writeCalls E n cs) s = _ from hw)
      have e2 := (writeCalls_appends E n cs).ok h2
      exact .cons h1 (fun a ha _ => (hc c List.mem_cons_self a (e2.2.subset ha)).symm)
        (ih s1 h2 fun c' hc' => hc c' (List.mem_cons_of_mem _ hc'))
  exact ⟨hf, by rw [← (C79_session_writes_first_contents E n cs s H hf).1, hw]⟩

/-- **C79**: reading the values of a session back yields the values and, for every shared object, the content it had when the session
wrote it first: changes made later, between the calls, are lost. -/
theorem C79_session_restored (E : Env) (HT : Nat → Option Ty) (n : Nat) (cs : List Call) (F : Heap) (ws : WSt)
    (h : FirstContents E n WSt.init cs F) (hH : ∀ ρ, HeapRepr E F HT ρ)
    (hv : ∀ ρ, ∀ c ∈ cs, BRepr E HT ρ 0 0 c.ty (E.valInit c.ty) c.value)
    (hw : writeCalls E n cs WSt.init = .ok () ws) (rest : Str) :
    ∃ ρ vs' rs, readSeq E n (cs.map Call.ty) (RSt.init (ws.out ++ rest)) = .ok vs' rs ∧ rs.inp = rest ∧
      GraphCopy F (.tup (cs.map Call.value)) rs.asHeap (.tup vs') ρ := by
  have hw' := hw
  rw [(C79_session_writes_first_contents E n cs _ F h).1] at hw'
  obtain ⟨ρ, vs', rs, h1, h2, h3⟩ := C30_consecutive_values E F HT n (cs.map fun c => (c.ty, c.value)) ws hH
    (by
      intro ρ x hx
      obtain ⟨c, hc, rfl⟩ := List.mem_map.1 hx
      exact hv ρ c hc) hw' rest
  rw [List.map_map] at h1 h3
  exact ⟨ρ, vs', rs, h1, h2, h3⟩

theorem writeCalls_append {E : Env} {n : Nat} {cs cs' : List Call} {s s1 : WSt} (h : writeCalls E n cs s = .ok () s1) :
    writeCalls E n (cs ++ cs') s = writeCalls E n cs' s1 := by
  induction cs generalizing s with
  | nil => cases h; rfl
  | cons c cs ih =>
    obtain ⟨u, s2, h1, h2⟩ := M.bind_eq_ok.1 (show (write E c.heap n 0 c.ty c.value >>= fun _ => writeCalls E n cs) s = _ from h)
    show (write E c.heap n 0 c.ty c.value >>= fun _ => writeCalls E n (cs ++ cs')) s = _
    rw [M.bind_ok h1]
    exact ih h2

theorem readSeq_append_exc {E : Env} {n : Nat} {ts ts' : List Ty} {s s1 s2 : RSt} {vs : List Val} {e : BExc}
    (h : readSeq E n ts s = .ok vs s1) (h' : readSeq E n ts' s1 = .exc e s2) : readSeq E n (ts ++ ts') s = .exc e s2 := by
  induction ts generalizing s vs with
  | nil => cases h; exact h'
  | cons t ts ih =>
    obtain ⟨v, s3, h1, h2⟩ := M.bind_eq_ok.1
      (show (read E n 0 t (E.valInit t) >>= fun v => readSeq E n ts >>= fun vs => pure (v :: vs)) s = _ from h)
    obtain ⟨ws, s4, h3, h4⟩ := M.bind_eq_ok.1 h2
    cases h4
    show (read E n 0 t (E.valInit t) >>= fun v => readSeq E n (ts ++ ts') >>= fun vs => pure (v :: vs)) s = _
    rw [M.bind_ok h1]
    exact M.bind_eq_exc.2 (.inl (ih h3))

theorem FirstContents.append_one {E : Env} {n : Nat} {s ws ws' : WSt} {cs : List Call} {c : Call} {F : Heap} (h : FirstContents E n s cs F)
    (hw : writeCalls E n cs s = .ok () ws) (hc : write E c.heap n 0 c.ty c.value ws = .ok () ws')
    (hf : ∀ a ∈ ws'.seen, a ∉ ws.seen → F a = c.heap a) : FirstContents E n s (cs ++ [c]) F := by
  induction h with
  | nil => cases hw; exact .cons hc hf (.nil _ _)
  | cons h1 h2 h3 ih =>
    obtain ⟨u, s1, hw1, hw2⟩ := M.bind_eq_ok.1 (show (write _ _ _ _ _ _ >>= fun _ => writeCalls E n _) _ = _ from hw)
    rw [h1] at hw1
    cases hw1
    exact .cons h1 h2 (ih hw2 hf)

/-- **C79**, the limit: once the session has recorded address `a`, a later pointer to `a` is written as a reference to that record,
whatever is at `a` by then: the bytes written do not depend on the heap, and the contents the reader gets are still those of `F`. -/
theorem C79_limit_later_content_not_written (E : Env) (n : Nat) (cs : List Call) (F : Heap) (ws : WSt) (a : Nat) (t : Ty) (ha : a < 2 ^ 64)
    (h : FirstContents E (n + 1) WSt.init cs F) (hw : writeCalls E (n + 1) cs WSt.init = .ok () ws) (hs : a ∈ ws.seen) :
    ∃ ws', ws'.seen = ws.seen ∧ ∀ H', writeCalls E (n + 1) (cs ++ [⟨H', .sptr t, .ref a⟩]) WSt.init = .ok () ws' ∧
      FirstContents E (n + 1) WSt.init (cs ++ [⟨H', .sptr t, .ref a⟩]) F := by
  have hl : ∀ H', ∃ bs : Str, IdBytes a bs ∧ write E H' (n + 1) 0 (.sptr t) (.ref a) ws = .ok () { ws with out := ws.out ++ (if 2 ^ 55 ≤ a then 6 else 2) :: bs } :=
    fun H' => let ⟨bs, h1, h2, _⟩ := C34_later_occurrence E H' n 0 0 t .null a ha ws hs; ⟨bs, h1, h2⟩
  obtain ⟨bs, -, hb⟩ := hl (fun _ => none)
  refine ⟨{ ws with out := ws.out ++ (if 2 ^ 55 ≤ a then 6 else 2) :: bs }, rfl, fun H' => ?_⟩
  have h2 : write E H' (n + 1) 0 (.sptr t) (.ref a) ws = _ := write_congr_recorded hb fun x hx hn => absurd hx hn
  refine ⟨?_, h.append_one hw h2 fun x hx hn => absurd hx hn⟩
  rw [writeCalls_append hw]
  show (write E H' (n + 1) 0 (.sptr t) (.ref a) >>= fun _ => pure ()) ws = _
  rw [M.bind_ok h2]
  rfl

/-- **C79**, the limit: if the object at `a` has been destroyed after it was written and the address is reused for an object of another
type (or a pointer of another type refers to the same object), writing still succeeds but the result cannot be read: a
`ConversionException` is thrown. -/
theorem C79_limit_reused_address (E : Env) (HT : Nat → Option Ty) (n : Nat) (cs : List Call) (F : Heap) (ws : WSt)
    (h : FirstContents E (n + 1) WSt.init cs F) (hH : ∀ ρ, HeapRepr E F HT ρ)
    (hv : ∀ ρ, ∀ c ∈ cs, BRepr E HT ρ 0 0 c.ty (E.valInit c.ty) c.value)
    (hw : writeCalls E (n + 1) cs WSt.init = .ok () ws)
    (a : Nat) (ha : a < 2 ^ 64) (hs : a ∈ ws.seen) (t : Ty) (ht : HT a ≠ some t) (H' : Heap) (rest : Str) :
    ∃ ws', writeCalls E (n + 1) (cs ++ [⟨H', .sptr t, .ref a⟩]) WSt.init = .ok () ws' ∧
      ∃ rs, readSeq E (n + 1) (cs.map Call.ty ++ [.sptr t]) (RSt.init (ws'.out ++ rest)) = .exc .conv rs ∧ rs.inp = rest := by
  obtain ⟨bs, hb, hb2, -⟩ := C34_later_occurrence E H' n 0 0 t .null a ha ws hs
  refine ⟨{ ws with out := ws.out ++ (if 2 ^ 55 ≤ a then 6 else 2) :: bs }, ?_, ?_⟩
  · rw [writeCalls_append hw]
    show (write E H' (n + 1) 0 (.sptr t) (.ref a) >>= fun _ => pure ()) ws = _
    rw [M.bind_ok hb2]
    rfl
  have hw' := hw
  rw [(C79_session_writes_first_contents E (n + 1) cs _ F h).1] at hw'
  have hp := consecutive_pair E F HT (n + 1) (cs.map fun c => (c.ty, c.value)) hH
    (by
      intro ρ x hx
      obtain ⟨c, hc, rfl⟩ := List.mem_map.1 hx
      exact hv ρ c hc) (numbering ws.seen)
  obtain ⟨-, bytes, h2, h3⟩ := hp _ _ hw'
  have h2 : ws.out = bytes := h2
  obtain ⟨-, rs, h5, h6, h7, -, -⟩ := h3 (agrees_numbering _)
    (RSt.init (ws.out ++ ((if 2 ^ 55 ≤ a then 6 else 2) :: bs ++ rest))) ((if 2 ^ 55 ≤ a then 6 else 2) :: bs ++ rest) (by rw [h2]; rfl) (corr_init _)
  rw [List.map_map] at h5
  obtain ⟨t0, e0, e1⟩ := h7.typed a hs
  have he := C33_bad_reference_throws E n 0 t (E.valInit (.sptr t)) (if 2 ^ 55 ≤ a then 6 else 2) a bs rest rs
    (by split <;> decide) (by split <;> decide)
    (by
      cases hb with
      | long g1 g2 =>
        rw [if_pos g1, if_pos (by decide)]
        exact ⟨beBytes_length _ _, (ofBE_beBytes8 g2).symm⟩
      | short g1 g2 g3 g4 g5 =>
        rw [if_neg (show ¬ 2 ^ 55 ≤ a by omega), if_neg (by decide)]
        exact ⟨_, g2, g3, g4, rfl⟩) h6
    (by
      intro addr hl
      rw [e1] at hl
      cases hl
      exact ht e0)
  refine ⟨{ rs with inp := rest }, ?_, rfl⟩
  have h9 : readSeq E (n + 1) [.sptr t] rs = .exc .conv { rs with inp := rest } :=
    show (read E (n + 1) 0 (.sptr t) (E.valInit (.sptr t)) >>= fun v => readSeq E (n + 1) [] >>= fun vs => pure (v :: vs)) rs = _ from
      M.bind_eq_exc.2 (.inl he)
  have := readSeq_append_exc h5 h9
  rw [← List.append_assoc] at this
  exact this

/-! ## Non-vacuity -/

namespace SessionDemo
open Demo

/-- node 1000 alone -/
def before : Heap := fun a => match a with
  | 1000 => some (.obj [(fV.key, .int 1), (fN.key, .ref 1000)])
  | _ => none

/-- later: node 1000 has been changed and refers to a new node 2000, which refers back -/
def after : Heap := fun a => match a with
  | 1000 => some (.obj [(fV.key, .int 7), (fN.key, .ref 2000)])
  | 2000 => some (.obj [(fV.key, .int 2), (fN.key, .ref 1000)])
  | _ => none

/-- what the session writes: the old content of node 1000, the content of node 2000 -/
def first : Heap := fun a => match a with
  | 1000 => some (.obj [(fV.key, .int 1), (fN.key, .ref 1000)])
  | 2000 => some (.obj [(fV.key, .int 2), (fN.key, .ref 1000)])
  | _ => none

/-- a shared pointer to node 1000 is written; then, after the change, a shared pointer to node 2000 -/
def calls : List Call := [⟨before, .sptr (.cls 2), .ref 1000⟩, ⟨after, .sptr (.cls 2), .ref 2000⟩]

theorem first_repr (ρ : Nat → Nat) : HeapRepr env first cycTypes ρ := by
  intro a t h
  unfold cycTypes at h
  split at h
  · cases h
    exact ⟨_, rfl, node_repr ρ _ _ _ _ _ (by decide) (by decide) rfl (by decide)⟩
  · cases h
    exact ⟨_, rfl, node_repr ρ _ _ _ _ _ (by decide) (by decide) rfl (by decide)⟩
  · cases h

theorem calls_first : FirstContents env 10 WSt.init calls first := by
  have h1 : write env before 10 0 (.sptr (.cls 2)) (.ref 1000) WSt.init =
      .ok () ⟨[1, 0x43, 0xE8, 0, 0, 0, 1, 2, 0x43, 0xE8], [1000]⟩ := by decide +kernel
  have h2 : write env after 10 0 (.sptr (.cls 2)) (.ref 2000) ⟨[1, 0x43, 0xE8, 0, 0, 0, 1, 2, 0x43, 0xE8], [1000]⟩ =
      .ok () ⟨[1, 0x43, 0xE8, 0, 0, 0, 1, 2, 0x43, 0xE8, 1, 0x47, 0xD0, 0, 0, 0, 2, 2, 0x43, 0xE8], [2000, 1000]⟩ := by decide +kernel
  refine .cons h1 ?_ (.cons h2 ?_ (.nil _ _))
  · intro a ha _
    simp only [List.mem_cons, List.not_mem_nil, or_false] at ha
    subst ha
    rfl
  · intro a ha hn
    simp only [List.mem_cons, List.not_mem_nil, or_false] at ha hn
    rcases ha with rfl | rfl
    · rfl
    · exact absurd rfl hn

/-- The session meets the hypotheses of `C79_session_restored`: what is read back has the old content of node 1000. -/
example : ∃ ws, writeCalls env 10 calls WSt.init = .ok () ws ∧
    ∃ ρ vs' rs, readSeq env 10 [.sptr (.cls 2), .sptr (.cls 2)] (RSt.init (ws.out ++ [9])) = .ok vs' rs ∧ rs.inp = [9] ∧
      GraphCopy first (.tup [.ref 1000, .ref 2000]) rs.asHeap (.tup vs') ρ := by
  obtain ⟨ws, hw⟩ := (C79_session_writes_first_contents env 10 calls _ first calls_first).2
  refine ⟨ws, hw, C79_session_restored env cycTypes 10 calls first ws calls_first first_repr ?_ hw [9]⟩
  intro ρ c hc
  simp only [calls, List.mem_cons, List.not_mem_nil, or_false] at hc
  rcases hc with rfl | rfl
  · exact .sptrSome rfl (by decide)
  · exact .sptrSome rfl (by decide)

/-- Node 2000 is destroyed afterwards and its address reused for an `int`: the output cannot be read. -/
example (H' : Heap) : ∃ ws', writeCalls env 10 (calls ++ [⟨H', .sptr (.int .i32), .ref 2000⟩]) WSt.init = .ok () ws' ∧
    ∃ rs, readSeq env 10 [.sptr (.cls 2), .sptr (.cls 2), .sptr (.int .i32)] (RSt.init (ws'.out ++ [9])) = .exc .conv rs ∧ rs.inp = [9] := by
  have hw : writeCalls env 10 calls WSt.init =
      .ok () ⟨[1, 0x43, 0xE8, 0, 0, 0, 1, 2, 0x43, 0xE8, 1, 0x47, 0xD0, 0, 0, 0, 2, 2, 0x43, 0xE8], [2000, 1000]⟩ := by decide +kernel
  refine C79_limit_reused_address env cycTypes 9 calls first _ calls_first first_repr ?_ hw 2000 (by decide) (by simp) (.int .i32)
    (by intro h; cases h) H' [9]
  intro ρ c hc
  simp only [calls, List.mem_cons, List.not_mem_nil, or_false] at hc
  rcases hc with rfl | rfl
  · exact .sptrSome rfl (by decide)
  · exact .sptrSome rfl (by decide)

end SessionDemo

end Verif
