import Verif.Lemmas.BinSound
import Verif.Props.BinaryRoundTrip

/-!
# C37: reading binary data into containers which are not empty
-/

namespace Verif

/-- `ReadsAll E n t init xs s s'`: starting in state `s` of the deserialiser, reading `xs.length` objects of type `t` one after
another, each into a new object with content `init`, yields `xs` and ends in state `s'`. -/
inductive ReadsAll (E : Env) (n : Nat) (t : Ty) (init : Val) : List Val → RSt → RSt → Prop
  | nil (s) : ReadsAll E n t init [] s s
  | cons {x xs s s1 s2} : read E n 0 t init s = .ok x s1 → ReadsAll E n t init xs s1 s2 → ReadsAll E n t init (x :: xs) s s2

/-- Reading is deterministic: the number of objects and the state determine what is read. -/
theorem ReadsAll.unique {E : Env} {n : Nat} {t : Ty} {init : Val} {xs ys : List Val} {s s1 s2 : RSt} (h1 : ReadsAll E n t init xs s s1)
    (h2 : ReadsAll E n t init ys s s2) (hl : xs.length = ys.length) : xs = ys ∧ s1 = s2 := by
  induction h1 generalizing ys s2 with
  | nil s =>
    cases h2 with
    | nil => exact ⟨rfl, rfl⟩
    | cons => simp at hl
  | cons h _ ih =>
    cases h2 with
    | nil => simp at hl
    | cons h' h'' =>
      rw [h] at h'
      cases h'
      obtain ⟨rfl, rfl⟩ := ih h'' (by simpa using hl)
      exact ⟨rfl, rfl⟩

/-- the elements inserted one after another -/
theorem readSetItems_ok {E : Env} {n : Nat} {multi : Bool} {t : Ty} {k : Nat} {acc acc' : List Val} {s s' : RSt}
    (h : readSetItems E (read E n) multi t k acc s = .ok acc' s') :
    ∃ xs, xs.length = k ∧ ReadsAll E n t (E.defInit t) xs s s' ∧
      acc' = xs.foldl (fun a x => if multi then insM (E.lt t) id x a else insU (E.lt t) id x a) acc := by
  induction k generalizing acc s with
  | zero =>
    cases h
    exact ⟨[], rfl, .nil _, rfl⟩
  | succ k ih =>
    simp only [readSetItems] at h
    rw [M.bind_eq_ok] at h
    obtain ⟨x, s1, h1, h2⟩ := h
    split at h2
    · cases h2
    · obtain ⟨xs, hl, hr, he⟩ := ih h2
      refine ⟨x :: xs, by simp [hl], .cons h1 hr, ?_⟩
      rw [he, List.foldl_cons]
      simp only [insertUniq_eq, insertMulti_eq]

/-- the entries read, as pairs -/
inductive ReadsEntries (E : Env) (n : Nat) (k t : Ty) : List (Val × Val) → RSt → RSt → Prop
  | nil (s) : ReadsEntries E n k t [] s s
  | cons {a b xs s s1 s2} : read E n 0 (.pair k t) (.tup [E.valInit k, E.valInit t]) s = .ok (.tup [a, b]) s1 →
      ReadsEntries E n k t xs s1 s2 → ReadsEntries E n k t ((a, b) :: xs) s s2

theorem readMapItems_ok {E : Env} {n : Nat} {multi : Bool} {k t : Ty} {c : Nat} {acc acc' : List (Val × Val)} {s s' : RSt}
    (h : readMapItems E (read E n) multi k t c acc s = .ok acc' s') :
    ∃ xs, xs.length = c ∧ ReadsEntries E n k t xs s s' ∧
      acc' = xs.foldl (fun a x => if multi then insM (E.lt k) Prod.fst x a else insU (E.lt k) Prod.fst x a) acc := by
  induction c generalizing acc s with
  | zero =>
    cases h
    exact ⟨[], rfl, .nil _, rfl⟩
  | succ c ih =>
    simp only [readMapItems] at h
    rw [M.bind_eq_ok] at h
    obtain ⟨x, s1, h1, h2⟩ := h
    split at h2
    · rename_i a b
      split at h2
      · cases h2
      · obtain ⟨xs, hl, hr, he⟩ := ih h2
        refine ⟨(a, b) :: xs, by simp [hl], .cons h1 hr, ?_⟩
        rw [he, List.foldl_cons]
        simp only [mapEmplace_eq, mapInsertMulti_eq]
    · cases h2

/-- **C37**: reading a `std::set`/`std::unordered_set` which already has the elements `ps`: as many elements as announced are read
(independently of `ps`); the result contains all of `ps`, and of the elements read those which are not equivalent to one of `ps` -
of several equivalent ones the first - and nothing else, in order. -/
theorem C37_set_united (E : Env) (n version : Nat) (hashed : Bool) (t : Ty) (ps : List Val) (v : Val) (rs rs' : RSt)
    (h : read E (n + 1) version (.set hashed false t) (.list ps) rs = .ok v rs') :
    ∃ xs vs s1, readVarint rs = .ok xs.length s1 ∧ ReadsAll E n t (E.defInit t) xs s1 rs' ∧ v = .list vs ∧
      (WeakOrderOn (E.lt t) (ps ++ xs) → (ps.Pairwise fun a b => E.lt t a b = true) →
        (vs.Pairwise fun a b => E.lt t a b = true) ∧
        ∀ y, y ∈ vs ↔ y ∈ ps ∨ ((∀ p ∈ ps, ¬ Equivalent (E.lt t) p y) ∧ FirstOfItsKind (E.lt t) xs y)) := by
  simp only [read, readStep] at h
  rw [M.bind_eq_ok] at h
  obtain ⟨c, s1, h1, h2⟩ := h
  rw [M.bind_eq_ok] at h2
  obtain ⟨vs, s2, h2, h3⟩ := h2
  cases h3
  obtain ⟨xs, rfl, hr, he⟩ := readSetItems_ok h2
  refine ⟨xs, vs, s1, h1, hr, rfl, fun hW hs => ?_⟩
  have := foldl_insU (key := id) hW xs ps (fun y hy => List.mem_append_right _ hy) (fun y hy => List.mem_append_left _ hy) hs
  rw [he]
  exact this

/-- **C37**: reading a multiset which already has the elements `ps`: all elements read are added (behind equivalent ones) to the
previous ones. -/
theorem C37_multiset_appended (E : Env) (n version : Nat) (hashed : Bool) (t : Ty) (ps : List Val) (v : Val) (rs rs' : RSt)
    (h : read E (n + 1) version (.set hashed true t) (.list ps) rs = .ok v rs') :
    ∃ xs vs s1, readVarint rs = .ok xs.length s1 ∧ ReadsAll E n t (E.defInit t) xs s1 rs' ∧ v = .list vs ∧
      (WeakOrderOn (E.lt t) (ps ++ xs) → (ps.Pairwise fun a b => E.lt t b a = false) →
        (vs.Pairwise fun a b => E.lt t b a = false) ∧ vs.Perm (ps ++ xs) ∧
        ∀ k ∈ ps ++ xs, groupBy (E.lt t) id k vs = groupBy (E.lt t) id k (ps ++ xs)) := by
  simp only [read, readStep] at h
  rw [M.bind_eq_ok] at h
  obtain ⟨c, s1, h1, h2⟩ := h
  rw [M.bind_eq_ok] at h2
  obtain ⟨vs, s2, h2, h3⟩ := h2
  cases h3
  obtain ⟨xs, rfl, hr, he⟩ := readSetItems_ok h2
  refine ⟨xs, vs, s1, h1, hr, rfl, fun hW hs => ?_⟩
  have := foldl_insM (key := id) hW xs ps (fun y hy => List.mem_append_right _ hy) (fun y hy => List.mem_append_left _ hy) hs
  rw [he]
  exact this

/-- **C37**: reading a `std::map`/`std::unordered_map` which already has the entries `ps`: as many entries as announced are read
(independently of `ps`); all previous entries are still there with their previous value, and of the entries read those are added
the key of which was not present - of several with equivalent key the first. -/
theorem C37_map_keeps_present_keys (E : Env) (n version : Nat) (hashed : Bool) (k t : Ty) (ps : List (Val × Val)) (v : Val) (rs rs' : RSt)
    (h : read E (n + 1) version (.map hashed false k t) (.map ps) rs = .ok v rs') :
    ∃ xs kvs s1, readVarint rs = .ok xs.length s1 ∧ ReadsEntries E n k t xs s1 rs' ∧ v = .map kvs ∧
      (WeakOrderOn (E.lt k) ((ps ++ xs).map Prod.fst) → (ps.Pairwise fun a b => E.lt k a.1 b.1 = true) →
        (kvs.Pairwise fun a b => E.lt k a.1 b.1 = true) ∧
        ∀ y, y ∈ kvs ↔ y ∈ ps ∨ ((∀ p ∈ ps, ¬ Equivalent (E.lt k) p.1 y.1) ∧ FirstBy (E.lt k) Prod.fst xs y)) := by
  simp only [read, readStep] at h
  rw [M.bind_eq_ok] at h
  obtain ⟨c, s1, h1, h2⟩ := h
  rw [M.bind_eq_ok] at h2
  obtain ⟨vs, s2, h2, h3⟩ := h2
  cases h3
  obtain ⟨xs, rfl, hr, he⟩ := readMapItems_ok h2
  refine ⟨xs, vs, s1, h1, hr, rfl, fun hW hs => ?_⟩
  have := foldl_insU (key := Prod.fst) hW xs ps (fun y hy => List.mem_map_of_mem (List.mem_append_right _ hy))
    (fun y hy => List.mem_map_of_mem (List.mem_append_left _ hy)) hs
  rw [he]
  exact this

/-- **C37**: multimaps: all entries read are added to the previous ones. -/
theorem C37_multimap_appended (E : Env) (n version : Nat) (hashed : Bool) (k t : Ty) (ps : List (Val × Val)) (v : Val) (rs rs' : RSt)
    (h : read E (n + 1) version (.map hashed true k t) (.map ps) rs = .ok v rs') :
    ∃ xs kvs s1, readVarint rs = .ok xs.length s1 ∧ ReadsEntries E n k t xs s1 rs' ∧ v = .map kvs ∧
      (WeakOrderOn (E.lt k) ((ps ++ xs).map Prod.fst) → (ps.Pairwise fun a b => E.lt k b.1 a.1 = false) →
        (kvs.Pairwise fun a b => E.lt k b.1 a.1 = false) ∧ kvs.Perm (ps ++ xs) ∧
        ∀ q ∈ ps ++ xs, groupBy (E.lt k) Prod.fst q.1 kvs = groupBy (E.lt k) Prod.fst q.1 (ps ++ xs)) := by
  simp only [read, readStep] at h
  rw [M.bind_eq_ok] at h
  obtain ⟨c, s1, h1, h2⟩ := h
  rw [M.bind_eq_ok] at h2
  obtain ⟨vs, s2, h2, h3⟩ := h2
  cases h3
  obtain ⟨xs, rfl, hr, he⟩ := readMapItems_ok h2
  refine ⟨xs, vs, s1, h1, hr, rfl, fun hW hs => ?_⟩
  have := foldl_insM (key := Prod.fst) hW xs ps (fun y hy => List.mem_map_of_mem (List.mem_append_right _ hy))
    (fun y hy => List.mem_map_of_mem (List.mem_append_left _ hy)) hs
  rw [he]
  exact ⟨this.1, this.2.1, fun q hq => this.2.2 q.1 (List.mem_map_of_mem hq)⟩

/-! ### sequences -/

/-- types the previous content of which has no influence when an object is read: neither (hashed) sets and maps nor classes, and
sequences and pairs of such types -/
def Ty.replaced : Ty → Bool
  | .bool | .int _ | .f32 | .f64 | .enum _ | .str | .opt _ | .uptr _ | .sptr _ | .variant _ | .dateTime | .timeSpan => true
  | .vec t => t.replaced
  | .pair a b => a.replaced && b.replaced
  | _ => false

/-- the shape which reading a sequence or pair relies on -/
def Ty.fits : Ty → Val → Prop
  | .vec t, v => ∃ vs, v = .list vs ∧ ∀ x ∈ vs, t.fits x
  | .pair a b, v => ∃ x y, v = .tup [x, y] ∧ a.fits x ∧ b.fits y
  | _, _ => True

theorem HasTy.fits {E : Env} {HT : List Ty} {t : Ty} {v : Val} (h : HasTy E HT t v) : t.fits v := by
  induction h with
  | vec _ ih => exact ⟨_, rfl, ih⟩
  | pair _ _ ih1 ih2 => exact ⟨_, _, rfl, ih1, ih2⟩
  | _ => trivial

theorem fits_valInit {E : Env} (t : Ty) : t.fits (E.valInit t) := by
  match t with
  | .vec t => exact ⟨[], rfl, by simp⟩
  | .pair a b => exact ⟨_, _, rfl, fits_valInit a, fits_valInit b⟩
  | .bool | .int _ | .f32 | .f64 | .enum _ | .str | .opt _ | .uptr _ | .sptr _ | .variant _ | .dateTime | .timeSpan | .cstr | .sview
  | .set _ _ _ | .map _ _ _ _ | .tuple _ | .mono | .cls _ => trivial

theorem readElems_congr {self : Nat → Ty → Val → RM Val} {t : Ty} (hs : ∀ p p', t.fits p → t.fits p' → self 0 t p = self 0 t p') :
    ∀ ps ps' : List Val, ps.length = ps'.length → (∀ x ∈ ps, t.fits x) → (∀ x ∈ ps', t.fits x) → readElems self t ps = readElems self t ps'
  | [], [], _, _, _ => rfl
  | p :: ps, p' :: ps', hl, h1, h2 => by
    simp only [readElems]
    rw [hs p p' (h1 _ List.mem_cons_self) (h2 _ List.mem_cons_self),
      readElems_congr hs ps ps' (by simpa using hl) (fun x hx => h1 x (List.mem_cons_of_mem _ hx)) (fun x hx => h2 x (List.mem_cons_of_mem _ hx))]

theorem resize_mem {vs : List Val} {n : Nat} {i x : Val} (h : x ∈ resize vs n i) : x ∈ vs ∨ x = i := by
  rcases List.mem_append.1 h with h | h
  · exact .inl (List.mem_of_mem_take h)
  · exact .inr (List.eq_of_mem_replicate h)

theorem read_replaced (E : Env) (n version : Nat) (t : Ty) (h : t.replaced = true) (p p' : Val) (hp : t.fits p) (hp' : t.fits p') :
    read E n version t p = read E n version t p' := by
  induction n generalizing version t p p' with
  | zero => rfl
  | succ n ih =>
    cases t <;> first
      | rfl
      | (simp [Ty.replaced] at h; done)
      | skip
    case vec t =>
      obtain ⟨vs, rfl, h1⟩ := hp
      obtain ⟨vs', rfl, h2⟩ := hp'
      simp only [read, readStep]
      refine congrArg _ (funext fun c => ?_)
      split
      · rfl
      · rw [readElems_congr (fun q q' hq hq' => ih 0 t h q q' hq hq') (resize vs c (E.valInit t)) (resize vs' c (E.valInit t))
          (by rw [resize_length, resize_length])]
        · intro x hx
          rcases resize_mem hx with hx | rfl
          · exact h1 x hx
          · exact fits_valInit t
        · intro x hx
          rcases resize_mem hx with hx | rfl
          · exact h2 x hx
          · exact fits_valInit t
    case pair a b =>
      obtain ⟨x, y, rfl, hx, hy⟩ := hp
      obtain ⟨x', y', rfl, hx', hy'⟩ := hp'
      simp only [Ty.replaced, Bool.and_eq_true] at h
      simp only [read, readStep]
      rw [ih 0 a h.1 x x' hx hx']
      refine congrArg _ (funext fun c => ?_)
      rw [ih 0 b h.2 y y' hy hy']

/-- **C37**: reading a sequence replaces its content: the result has as many elements as announced, no matter how many there were. -/
theorem C37_vector_has_announced_length (E : Env) (n version : Nat) (t : Ty) (ps : List Val) (v : Val) (rs rs' : RSt)
    (h : read E (n + 1) version (.vec t) (.list ps) rs = .ok v rs') :
    ∃ vs s1, v = .list vs ∧ readVarint rs = .ok vs.length s1 := by
  have hl : ∀ (qs vs : List Val) (s s' : RSt), readElems (read E n) t qs s = .ok vs s' → vs.length = qs.length := by
    intro qs
    induction qs with
    | nil => intro vs s s' h; cases h; rfl
    | cons q qs ih =>
      intro vs s s' h
      simp only [readElems] at h
      rw [M.bind_eq_ok] at h
      obtain ⟨x, s1, -, h2⟩ := h
      rw [M.bind_eq_ok] at h2
      obtain ⟨xs, s2, h2, h3⟩ := h2
      cases h3
      simp [ih _ _ _ h2]
  simp only [read, readStep] at h
  rw [M.bind_eq_ok] at h
  obtain ⟨c, s1, h1, h2⟩ := h
  split at h2
  · cases h2
  · rw [M.bind_eq_ok] at h2
    obtain ⟨vs, s2, h2, h3⟩ := h2
    cases h3
    exact ⟨vs, s1, rfl, by rw [hl _ _ _ _ h2, resize_length]; exact h1⟩

/-- **C37**: if the element type does not contain sets, maps or classes (not counting what is behind pointers, optionals and
variants), reading a sequence does not depend on the previous elements at all: the result (value, exception, input left) is the
same as when reading into an empty sequence. -/
theorem C37_vector_replaced (E : Env) (HT : List Ty) (n version : Nat) (t : Ty) (ht : t.replaced = true) (ps : List Val)
    (hp : HasTy E HT (.vec t) (.list ps)) : read E n version (.vec t) (.list ps) = read E n version (.vec t) (.list []) :=
  read_replaced E n version (.vec t) ht _ _ hp.fits ⟨[], rfl, by simp⟩

/-- **C37** (limit of the above): the elements are read in place, so maps and sets *within* a vector keep their previous entries,
too. Here a `vector<map<string, uint8_t>>` containing `{{"a": 1}}` reads the bytes of `{{"b": 2}}` and becomes `{{"a": 1, "b": 2}}`. -/
theorem C37_vector_of_maps_accumulates :
    ∃ ws rs, write Demo.env (fun _ => none) 4 0 (.vec (.map false false .str (.int .u8))) (.list [.map [(.str [98], .int 2)]]) WSt.init
      = .ok () ws ∧
    read Demo.env 4 0 (.vec (.map false false .str (.int .u8))) (.list [.map [(.str [97], .int 1)]]) (RSt.init ws.out)
      = .ok (.list [.map [(.str [97], .int 1), (.str [98], .int 2)]]) rs := by
  have h1 : write Demo.env (fun _ => none) 4 0 (.vec (.map false false .str (.int .u8))) (.list [.map [(.str [98], .int 2)]]) WSt.init
      = .ok () ⟨[0x81, 0x81, 0x81, 98, 2], []⟩ := rfl
  exact ⟨_, ⟨[], [], []⟩, h1, rfl⟩

-- the hypotheses are met: a set {2} reading {1, 2, 3}, a map {a: 1} reading {a: 5, b: 2}
example : ∃ rs, read Demo.env 3 0 (.set false false (.int .u8)) (.list [.int 2]) (RSt.init [0x83, 1, 2, 3]) =
    .ok (.list [.int 1, .int 2, .int 3]) rs := ⟨_, rfl⟩
example : ∃ rs, read Demo.env 4 0 (.map false false .str (.int .u8)) (.map [(.str [97], .int 1)]) (RSt.init [0x82, 0x81, 97, 5, 0x81, 98, 2]) =
    .ok (.map [(.str [97], .int 1), (.str [98], .int 2)]) rs := ⟨_, rfl⟩
example : ∃ rs, read Demo.env 3 0 (.set false true (.int .u8)) (.list [.int 2]) (RSt.init [0x83, 1, 2, 3]) =
    .ok (.list [.int 1, .int 2, .int 2, .int 3]) rs := ⟨_, rfl⟩
example : ∃ rs, read Demo.env 4 0 (.map false true .str (.int .u8)) (.map [(.str [97], .int 1)]) (RSt.init [0x82, 0x81, 97, 5, 0x81, 98, 2]) =
    .ok (.map [(.str [97], .int 1), (.str [97], .int 5), (.str [98], .int 2)]) rs := ⟨_, rfl⟩
example : WeakOrderOn (Demo.env.lt (.int .u8)) [.int 2, .int 1, .int 2, .int 3] := by
  constructor <;> simp [Demo.env, Demo.stdLt]
example : HasTy Demo.env [] (.vec (.vec .str)) (.list [.list [.str [1]]]) :=
  .vec (by simp; exact .vec (by simp; exact .str _))

end Verif
