import Verif.Props.Reproducible
import Verif.Props.JsonRoundTrip
import Verif.Props.JsonText
import Verif.Props.WriteExceptions

/-!
# Using the output for comparing objects (C92)

JSON documents or texts and binary data are used as keys (of caches, for detecting modifications, for comparing objects of types without
`operator==`). Whether different objects can have the same output and the same objects different output.
-/

namespace Verif

/-! ## JSON -/

theorem strTotal_same {E E' : Env} (h : SameExceptOrder E E') (hE : StrTotal E) : StrTotal E' :=
  ⟨fun a => by rw [h.lt]; exact hE.irrefl a, fun a b c => by rw [h.lt]; exact hE.trans a b c, fun a b => by rw [h.lt]; exact hE.total a b⟩

theorem push_det {E : Env} {H : Heap} {n m : Nat} {t : Ty} {v : Val} {j k : Json} (hj : push E H n t v () = .ok j ())
    (hk : push E H m t v () = .ok k ()) : j = k := by
  have h1 := push_mono (Nat.le_max_left n m) hj (by simp)
  have h2 := push_mono (Nat.le_max_right n m) hk (by simp)
  rw [h1] at h2
  cases h2
  rfl

/-- **C92** (JSON documents, different objects): let `u` and `u'` be the contents (tree unfoldings) of two object graphs, possibly of
different processes, both representable. If the documents written for them are the same (`own`: apart from where names are stored), then the
contents are the same. -/
theorem C92_same_document_same_content (E E' : Env) (h : SameExceptOrder E E') (hE : StrTotal E) (H H' : Heap) (hi : IterIndep E H)
    (hi' : IterIndep E' H') (t : Ty) (p v v' u u' : Val) (hu : Unfold H v u) (hu' : Unfold H' v' u') (hr : JRepr E H t p u)
    (hr' : JRepr E' H' t p u') (n n' : Nat) (j j' : Json) (hj : push E H n t v () = .ok j ()) (hj' : push E' H' n' t v' () = .ok j' ())
    (hs : own j = own j') : u = u' := by
  obtain ⟨N, k, hk⟩ := C01_object_graph_comes_back_as_tree E H hE hi t p v u hu hr
  obtain ⟨N', k', hk'⟩ := C01_object_graph_comes_back_as_tree E' H' (strTotal_same h hE) hi' t p v' u' hu' hr'
  obtain ⟨a1, a2, _⟩ := hk (max N N') (Nat.le_max_left _ _)
  obtain ⟨b1, b2, _⟩ := hk' (max N N') (Nat.le_max_right _ _)
  cases push_det hj a1
  cases push_det hj' b1
  rw [C86_reading_json_independent E E' h, ← pull_own, ← hs, pull_own, a2] at b2
  cases b2
  rfl

/-- **C92** (JSON documents): without hashed containers the documents of two representable object graphs, possibly written by different
processes, are the same iff their contents are. -/
theorem C92_same_document_iff_same_content (E E' : Env) (h : SameExceptOrder E E') (hE : StrTotal E) (H H' : Heap) (hi : IterIndep E H)
    (hi' : IterIndep E' H') (t : Ty) (ht : WithoutHashed E t) (p v v' u u' : Val) (hu : Unfold H v u) (hu' : Unfold H' v' u')
    (hr : JRepr E H t p u) (hr' : JRepr E' H' t p u') (n n' : Nat) (j j' : Json) (hj : push E H n t v () = .ok j ())
    (hj' : push E' H' n' t v' () = .ok j' ()) : j = j' ↔ u = u' := by
  refine ⟨fun e => C92_same_document_same_content E E' h hE H H' hi hi' t p v v' u u' hu hu' hr hr' n n' j j' hj hj' (by rw [e]), ?_⟩
  rintro rfl
  rw [C24_shared_objects_are_duplicated E H hi n t v u hu H] at hj
  rw [C24_shared_objects_are_duplicated E' H' hi' n' t v' u hu' H, h.eq, push_ordered n' t ht u] at hj'
  exact push_det hj hj'

/-- **C92** (JSON texts): the same for the texts, if all integers are 64-bit integers and all floating-point numbers are finite and survive
the conversions between `double` and text. -/
theorem C92_same_text_iff_same_content (E E' : Env) (h : SameExceptOrder E E') (hE : StrTotal E) (H H' : Heap) (hi : IterIndep E H)
    (hi' : IterIndep E' H') (hv : VisitsAll E) (hv' : VisitsAll E') (D : Dbl) (t : Ty)
    (htop : (∃ c, t = .cls c) ∨ (∃ h m k v, t = .map h m k v) ∨ (∃ t', t = .vec t')) (ht : WithoutHashed E t) (p v v' u u' : Val)
    (hu : Unfold H v u) (hu' : Unfold H' v' u') (hr : JRepr E H t p u) (hr' : JRepr E' H' t p u') (hf : FitsText D H v)
    (hf' : FitsText D H' v') (n n' : Nat) (s s' : Str) (hs : toJson E H D n t v () = .ok s ()) (hs' : toJson E' H' D n' t v' () = .ok s' ()) :
    s = s' ↔ u = u' := by
  obtain ⟨j, hj, e⟩ := SM.bind_ok_iff.1 hs
  obtain ⟨j', hj', e'⟩ := SM.bind_ok_iff.1 hs'
  cases e
  cases e'
  have hj : push E H n t v () = .ok j () := by
    rcases htop with ⟨c, rfl⟩ | ⟨h, m, k, v, rfl⟩ | ⟨t', rfl⟩ <;> exact hj
  have hj' : push E' H' n' t v' () = .ok j' () := by
    rcases htop with ⟨c, rfl⟩ | ⟨h, m, k, v, rfl⟩ | ⟨t', rfl⟩ <;> exact hj'
  constructor
  · intro e
    refine C92_same_document_same_content E E' h hE H H' hi hi' t p v v' u u' hu hu' hr hr' n n' j j' hj hj' ?_
    refine C52_text_determines_document D j j' ?_ ?_ e
    · exact push_numbers (fun b _ x hx => (order_perm hv b _).subset hx) (fun b _ x hx => (orderKV_perm hv b _).subset hx) n t v j hj hf
    · exact push_numbers (fun b _ x hx => (order_perm hv' b _).subset hx) (fun b _ x hx => (orderKV_perm hv' b _).subset hx) n' t v' j' hj' hf'
  · intro e
    rw [(C92_same_document_iff_same_content E E' h hE H H' hi hi' t ht p v v' u u' hu hu' hr hr' n n' j j' hj hj').2 e]

/-! ## binary -/

mutual
theorem Val.rename_rename (ρ τ σ : Nat → Nat) : ∀ v : Val, (∀ a ∈ v.refs, τ (ρ a) = σ a) → (v.rename ρ).rename τ = v.rename σ
  | .some v, h => by rw [Val.rename, Val.rename, Val.rename, Val.rename_rename ρ τ σ v h]
  | .ptr v, h => by rw [Val.rename, Val.rename, Val.rename, Val.rename_rename ρ τ σ v h]
  | .ref a, h => by rw [Val.rename, Val.rename, Val.rename, h a (by simp [Val.refs])]
  | .list vs, h => by rw [Val.rename, Val.rename, Val.rename, Val.renameL_rename ρ τ σ vs h]
  | .map kvs, h => by rw [Val.rename, Val.rename, Val.rename, Val.renameKV_rename ρ τ σ kvs h]
  | .tup vs, h => by rw [Val.rename, Val.rename, Val.rename, Val.renameL_rename ρ τ σ vs h]
  | .alt i v, h => by rw [Val.rename, Val.rename, Val.rename, Val.rename_rename ρ τ σ v h]
  | .obj fs, h => by rw [Val.rename, Val.rename, Val.rename, Val.renameF_rename ρ τ σ fs h]
  | .indet, _ => rfl
  | .bool _, _ => rfl
  | .int _, _ => rfl
  | .f32 _, _ => rfl
  | .f64 _, _ => rfl
  | .str _, _ => rfl
  | .cstr _, _ => rfl
  | .null, _ => rfl
  | .valueless, _ => rfl
  | .mono, _ => rfl
  | .tick _, _ => rfl
theorem Val.renameL_rename (ρ τ σ : Nat → Nat) : ∀ vs : List Val, (∀ a ∈ Val.refsL vs, τ (ρ a) = σ a) →
    Val.renameL τ (Val.renameL ρ vs) = Val.renameL σ vs
  | [], _ => rfl
  | v :: vs, h => by
    simp only [Val.refsL, List.mem_append] at h
    rw [Val.renameL, Val.renameL, Val.renameL, Val.rename_rename ρ τ σ v (fun a ha => h a (.inl ha)),
      Val.renameL_rename ρ τ σ vs (fun a ha => h a (.inr ha))]
theorem Val.renameKV_rename (ρ τ σ : Nat → Nat) : ∀ vs : List (Val × Val), (∀ a ∈ Val.refsKV vs, τ (ρ a) = σ a) →
    Val.renameKV τ (Val.renameKV ρ vs) = Val.renameKV σ vs
  | [], _ => rfl
  | (k, v) :: vs, h => by
    simp only [Val.refsKV, List.mem_append] at h
    rw [Val.renameKV, Val.renameKV, Val.renameKV, Val.rename_rename ρ τ σ k (fun a ha => h a (.inl (.inl ha))),
      Val.rename_rename ρ τ σ v (fun a ha => h a (.inl (.inr ha))), Val.renameKV_rename ρ τ σ vs (fun a ha => h a (.inr ha))]
theorem Val.renameF_rename (ρ τ σ : Nat → Nat) : ∀ vs : List (FieldKey × Val), (∀ a ∈ Val.refsF vs, τ (ρ a) = σ a) →
    Val.renameF τ (Val.renameF ρ vs) = Val.renameF σ vs
  | [], _ => rfl
  | (k, v) :: vs, h => by
    simp only [Val.refsF, List.mem_append] at h
    rw [Val.renameF, Val.renameF, Val.renameF, Val.rename_rename ρ τ σ v (fun a ha => h a (.inl ha)),
      Val.renameF_rename ρ τ σ vs (fun a ha => h a (.inr ha))]
end

/-- object graphs having a copy in common are copies of each other -/
theorem graphCopy_common {H H' K : Heap} {v v' r : Val} {ρ ρ' : Nat → Nat} (h : GraphCopy H v K r ρ) (h' : GraphCopy H' v' K r ρ') :
    ∃ σ, GraphCopy H v H' v' σ := by
  classical
  have inv : ∀ b, ∃ a, Reachable H' v' a ∧ ρ' a = b ∨ (¬ ∃ a, Reachable H' v' a ∧ ρ' a = b) := fun b =>
    if hb : ∃ a, Reachable H' v' a ∧ ρ' a = b then ⟨hb.choose, .inl hb.choose_spec⟩ else ⟨0, .inr hb⟩
  choose τ hτ using inv
  have hτ' : ∀ a, Reachable H' v' a → τ (ρ' a) = a := fun a ha => by
    rcases hτ (ρ' a) with ⟨h1, h2⟩ | h1
    · exact h'.inj _ _ h1 ha h2
    · exact absurd ⟨a, ha, rfl⟩ h1
  have back : ∀ x : Val, (∀ a ∈ x.refs, Reachable H' v' a) → (x.rename ρ').rename τ = x := fun x hx => by
    rw [Val.rename_rename ρ' τ id x fun a ha => hτ' a (hx a ha), Val.rename_id]
  have hn : ∀ a, Reachable H v a → ∃ b, Reachable H' v' b ∧ ρ' b = ρ a := fun a ha =>
    (graphIso_of h').nodes (ρ a) |>.1 ((graphIso_of h).nodes (ρ a) |>.2 ⟨a, ha, rfl⟩)
  refine ⟨τ ∘ ρ, ?_, ?_, ?_⟩
  · rw [← Val.rename_rename ρ τ (τ ∘ ρ) v fun _ _ => rfl, ← h.root, h'.root, back v' fun a ha => .direct ha]
  · intro a b ha hb e
    obtain ⟨a', ha', ea⟩ := hn a ha
    obtain ⟨b', hb', eb⟩ := hn b hb
    simp only [Function.comp, ← ea, ← eb, hτ' a' ha', hτ' b' hb'] at e
    exact h.inj a b ha hb (by rw [← ea, ← eb, e])
  · intro a ha
    obtain ⟨x, hx, hK⟩ := h.content a ha
    obtain ⟨b, hb, eb⟩ := hn a ha
    obtain ⟨y, hy, hK'⟩ := h'.content b hb
    refine ⟨x, hx, ?_⟩
    rw [eb, hK] at hK'
    have e : x.rename ρ = y.rename ρ' := by simpa using hK'
    rw [← Val.rename_rename ρ τ (τ ∘ ρ) x fun _ _ => rfl, e, back y fun c hc => .step hb hy hc, Function.comp, ← eb, hτ' b hb, hy]

/-- **C92** (binary data, different objects): if the bytes of one representable object graph start with those of another one (possibly of
another process, using another version) then they are the same bytes and the graphs are copies of each other, that is they consist of
objects of the same content which are shared in the same way. -/
theorem C92_same_bytes_same_graph (E E' : Env) (h : SameExceptOrder E E') (H H' : Heap) (HT HT' : Nat → Option Ty) (n n' vw vw' vr : Nat)
    (t : Ty) (p v v' : Val) (ws ws' : WSt) (hH : ∀ ρ, HeapRepr E H HT ρ) (hH' : ∀ ρ, HeapRepr E' H' HT' ρ)
    (hv : ∀ ρ, BRepr E HT ρ vw vr t p v) (hv' : ∀ ρ, BRepr E' HT' ρ vw' vr t p v') (hw : write E H n vw t v WSt.init = .ok () ws)
    (hw' : write E' H' n' vw' t v' WSt.init = .ok () ws') (more : Str) (he : ws'.out = ws.out ++ more) :
    more = [] ∧ ∃ σ, GraphCopy H v H' v' σ := by
  obtain ⟨ρ, r, rs, h1, h2, h3⟩ := C27_read_yields_what_was_written E H HT n (max n n') vw vr t p v ws hH hv (Nat.le_max_left _ _) hw more
  obtain ⟨ρ', r', rs', h1', h2', h3'⟩ :=
    C27_read_yields_what_was_written E' H' HT' n' (max n n') vw' vr t p v' ws' hH' hv' (Nat.le_max_right _ _) hw' []
  rw [List.append_nil, he, C86_reading_binary_independent E E' h, h1] at h1'
  cases h1'
  exact ⟨by rw [← h2, h2'], graphCopy_common h3 h3'⟩

/-- **C92** (binary data): without hashed containers and shared pointers the bytes of two representable objects, possibly of different
processes, are the same iff the objects are. -/
theorem C92_same_bytes_iff_same_value (E E' : Env) (h : SameExceptOrder E E') (H H' : Heap) (HT HT' : Nat → Option Ty) (n n' vw vr : Nat)
    (t : Ty) (ht : WithoutHashed E t) (hs : WithoutSharedPtr E t) (p v v' : Val) (ws ws' : WSt) (hH : ∀ ρ, HeapRepr E H HT ρ)
    (hH' : ∀ ρ, HeapRepr E' H' HT' ρ) (hv : ∀ ρ, BRepr E HT ρ vw vr t p v) (hv' : ∀ ρ, BRepr E' HT' ρ vw vr t p v') (hr : v.refs = [])
    (hw : write E H n vw t v WSt.init = .ok () ws) (hw' : write E' H' n' vw t v' WSt.init = .ok () ws') : ws.out = ws'.out ↔ v = v' := by
  constructor
  · intro e
    obtain ⟨_, σ, hσ⟩ := C92_same_bytes_same_graph E E' h H H' HT HT' n n' vw vw vr t p v v' ws ws' hH hH' hv hv' hw hw' [] (by rw [e, List.append_nil])
    rw [hσ.root, Val.rename_of_noRef σ v hr]
  · rintro rfl
    have h1 := write_mono (Nat.le_max_left n n') hw (by simp)
    have h2 := write_mono (Nat.le_max_right n n') hw' (by simp)
    rw [C87_binary_reproducible E E' h H H' _ vw t v ht hs ws h1] at h2
    cases h2
    rfl

/-! ## limits -/

/-- **C92** (limit, nested optionals): an empty optional and an optional containing an empty one have the same document. -/
theorem C92_limit_nested_optionals (E : Env) (H : Heap) (n : Nat) (t : Ty) :
    push E H (n + 2) (.opt (.opt t)) .null () = .ok .null () ∧ push E H (n + 2) (.opt (.opt t)) (.some .null) () = .ok .null () := ⟨rfl, rfl⟩

/-- **C92** (limit, keys containing NUL): maps the keys of which differ after a NUL only have the same document. -/
theorem C92_limit_keys_containing_nul (E : Env) (H : Heap) (n : Nat) (t : Ty) (k r r' : Str) (v : Val) :
    push E H n (.map false false .str t) (.map [(.str (k ++ 0 :: r), v)]) () =
      push E H n (.map false false .str t) (.map [(.str (k ++ 0 :: r'), v)]) () := by
  cases n with
  | zero => rfl
  | succ n =>
    have hc : ∀ r : Str, cstrOf (k ++ 0 :: r) = cstrOf (k ++ [0]) := fun r => by
      induction k with
      | nil => rfl
      | cons c k ih => simp only [List.cons_append, cstrOf, List.takeWhile_cons] at ih ⊢; rw [ih]
    have he : ∀ r : Str, rjStrRef (k ++ 0 :: r) = rjStrRef (k ++ [0]) := fun r => by unfold rjStrRef; rw [hc]
    have hp : ∀ r : Str, pushMapEntries (push E H n) t [(.str (k ++ 0 :: r), v)] = pushMapEntries (push E H n) t [(.str (k ++ [0]), v)] := fun r => by
      unfold pushMapEntries; rw [he]
    show (do let ms ← pushMapEntries (push E H n) t [(.str (k ++ 0 :: r), v)]; pure (.obj ms) : SM Json) () =
      (do let ms ← pushMapEntries (push E H n) t [(.str (k ++ 0 :: r'), v)]; pure (.obj ms) : SM Json) ()
    rw [hp r, hp r']

/-! ## non-vacuity -/

namespace OutputAsKeyDemo
open Demo OrderDemo

/-- a number pointed to twice -/
def one : Heap := fun a => if a = 7 then some (.int 5) else none
/-- two different numbers -/
def two : Heap := fun a => if a = 1 then some (.int 5) else if a = 2 then some (.int 6) else none

abbrev T : Ty := .vec (.sptr (.int .i32))

theorem ordered : WithoutHashed env T := by
  intro t h
  cases h with
  | refl => simp
  | vec h =>
    cases h with
    | refl => simp
    | sptr h => cases h; simp

theorem unfold_one : Unfold one (.list [.ref 7, .ref 7]) (.list [.ptr (.int 5), .ptr (.int 5)]) :=
  .list (.cons (.ref rfl (.leaf trivial)) (.cons (.ref rfl (.leaf trivial)) .nil))

theorem unfold_two (a b : Nat) (x y : Int) (ha : two a = some (.int x)) (hb : two b = some (.int y)) :
    Unfold two (.list [.ref a, .ref b]) (.list [.ptr (.int x), .ptr (.int y)]) :=
  .list (.cons (.ref ha (.leaf trivial)) (.cons (.ref hb (.leaf trivial)) .nil))

theorem repr (E : Env) (H : Heap) (x y : Int) (h1 : -2 ^ 31 ≤ x) (h2 : x < 2 ^ 31) (h3 : -2 ^ 31 ≤ y) (h4 : y < 2 ^ 31) :
    JRepr E H T (.list []) (.list [.ptr (.int x), .ptr (.int y)]) := by
  refine .vec fun v hv => ?_
  simp only [List.mem_cons, List.not_mem_nil, or_false] at hv
  rcases hv with rfl | rfl
  · exact .sptrSome (.int _ _ .i32 (by decide) (by decide) (by decide) h1 h2) (by intro h; cases h)
  · exact .sptrSome (.int _ _ .i32 (by decide) (by decide) (by decide) h3 h4) (by intro h; cases h)

theorem indep_env (H : Heap) : IterIndep env H := ⟨fun _ _ h => forall₂_reverse h, fun _ _ h => forall₂_reverse h⟩
theorem indep_asc (H : Heap) : IterIndep ascending H := ⟨fun _ _ h => h, fun _ _ h => h⟩

/-- two processes: one has two pointers to a number, the other pointers to different objects; the documents are the same iff the numbers are -/
example (a b : Nat) (x y : Int) (ha : two a = some (.int x)) (hb : two b = some (.int y)) (hx : -2 ^ 31 ≤ x ∧ x < 2 ^ 31) (hy : -2 ^ 31 ≤ y ∧ y < 2 ^ 31)
    (j j' : Json) (hj : push env one 5 T (.list [.ref 7, .ref 7]) () = .ok j ()) (hj' : push ascending two 6 T (.list [.ref a, .ref b]) () = .ok j' ()) :
    j = j' ↔ Val.list [.ptr (.int 5), .ptr (.int 5)] = .list [.ptr (.int x), .ptr (.int y)] :=
  C92_same_document_iff_same_content env ascending ⟨rfl, rfl, rfl, rfl, rfl, rfl, rfl⟩ demo_strTotal one two (indep_env _) (indep_asc _) T ordered (.list [])
    _ _ _ _ unfold_one (unfold_two a b x y ha hb) (repr _ _ 5 5 (by decide) (by decide) (by decide) (by decide))
    (repr _ _ x y hx.1 hx.2 hy.1 hy.2) 5 6 j j' hj hj'

/-- both outcomes occur -/
example : push env one 5 T (.list [.ref 7, .ref 7]) () = .ok (.arr [.num (.int 5), .num (.int 5)]) () ∧
    push ascending two 6 T (.list [.ref 1, .ref 1]) () = .ok (.arr [.num (.int 5), .num (.int 5)]) () ∧
    push ascending two 6 T (.list [.ref 1, .ref 2]) () = .ok (.arr [.num (.int 5), .num (.int 6)]) () := ⟨rfl, rfl, rfl⟩

/-- integers within a vector of two pointers to integers -/
theorem inside_pair {H : Heap} {a b : Nat} {x y : Int} (ha : H a = some (.int x)) (hb : H b = some (.int y)) {z : Val}
    (h : Inside H z (.list [.ref a, .ref b])) : z = .list [.ref a, .ref b] ∨ z = .ref a ∨ z = .ref b ∨ z = .int x ∨ z = .int y := by
  cases h with
  | refl => simp
  | list hm h =>
    simp only [List.mem_cons, List.not_mem_nil, or_false] at hm
    rcases hm with rfl | rfl
    · cases h with
      | refl => simp
      | ref he h => rw [ha] at he; cases he; cases h; simp
    · cases h with
      | refl => simp
      | ref he h => rw [hb] at he; cases he; cases h; simp

theorem fits {H : Heap} {a b : Nat} {x y : Int} (ha : H a = some (.int x)) (hb : H b = some (.int y)) (hx : -2 ^ 31 ≤ x ∧ x < 2 ^ 31)
    (hy : -2 ^ 31 ≤ y ∧ y < 2 ^ 31) : FitsText TextDemo.dbl H (.list [.ref a, .ref b]) where
  int i h := by rcases inside_pair ha hb h with h | h | h | h | h <;> cases h <;> omega
  f32 _ h := by rcases inside_pair ha hb h with h | h | h | h | h <;> cases h
  f64 _ h := by rcases inside_pair ha hb h with h | h | h | h | h <;> cases h
  index _ _ h := by rcases inside_pair ha hb h with h | h | h | h | h <;> cases h

/-- the same for the texts -/
example (a b : Nat) (x y : Int) (ha : two a = some (.int x)) (hb : two b = some (.int y)) (hx : -2 ^ 31 ≤ x ∧ x < 2 ^ 31) (hy : -2 ^ 31 ≤ y ∧ y < 2 ^ 31)
    (s s' : Str) (hs : toJson env one TextDemo.dbl 5 T (.list [.ref 7, .ref 7]) () = .ok s ())
    (hs' : toJson ascending two TextDemo.dbl 6 T (.list [.ref a, .ref b]) () = .ok s' ()) :
    s = s' ↔ Val.list [.ptr (.int 5), .ptr (.int 5)] = .list [.ptr (.int x), .ptr (.int y)] :=
  C92_same_text_iff_same_content env ascending ⟨rfl, rfl, rfl, rfl, rfl, rfl, rfl⟩ demo_strTotal one two (indep_env _) (indep_asc _) all_env all_asc
    TextDemo.dbl T (.inr (.inr ⟨_, rfl⟩)) ordered (.list [])
    _ _ _ _ unfold_one (unfold_two a b x y ha hb) (repr _ _ 5 5 (by decide) (by decide) (by decide) (by decide))
    (repr _ _ x y hx.1 hx.2 hy.1 hy.2) (fits rfl rfl (by decide) (by decide)) (fits ha hb hx hy) 5 6 s s' hs hs'

example : toJson env one TextDemo.dbl 5 T (.list [.ref 7, .ref 7]) () = .ok (lit "[5,5]") () := by decide +kernel

/-- in the binary format a cyclic list is determined by its bytes: whatever representable node has the bytes of the one of the example is a
copy of it -/
example (v : Val) (H : Heap) (HT : Nat → Option Ty) (hH : ∀ ρ, HeapRepr env H HT ρ) (n : Nat) (ws : WSt)
    (hv : ∀ ρ, BRepr env HT ρ 0 0 (.cls 2) (.obj [(fV.key, .indet), (fN.key, .null)]) v) (hw : write env H n 0 (.cls 2) v WSt.init = .ok () ws)
    (he : ws.out = [0, 0, 0, 1, 1, 0x47, 0xD0, 0, 0, 0, 2, 1, 0x43, 0xE8, 0, 0, 0, 1, 2, 0x47, 0xD0]) :
    ∃ σ, GraphCopy cycHeap (.obj [(fV.key, .int 1), (fN.key, .ref 2000)]) H v σ :=
  (C92_same_bytes_same_graph env env ⟨rfl, rfl, rfl, rfl, rfl, rfl, rfl⟩ cycHeap H cycTypes HT 10 n 0 0 0 (.cls 2) _ _ v
    ⟨[0, 0, 0, 1, 1, 0x47, 0xD0, 0, 0, 0, 2, 1, 0x43, 0xE8, 0, 0, 0, 1, 2, 0x47, 0xD0], [1000, 2000]⟩ ws cycHeap_repr hH
    (fun ρ => node_repr ρ 0 0 _ _ _ (by decide) (by decide) rfl (by decide)) hv (by decide +kernel) hw [] (by rw [he]; rfl)).2

theorem strings_ordered : WithoutHashed env (.vec .str) ∧ WithoutSharedPtr env (.vec .str) := by
  constructor <;> intro t h <;> cases h with
  | refl => simp
  | vec h => cases h; simp

theorem strings_repr (E : Env) (hE : E.maxLen = 1000000) (ρ : Nat → Nat) (s : Str) (h : s.length ≤ 1000000) :
    BRepr E cycTypes ρ 0 0 (.vec .str) (.list []) (.list [.str s, .str []]) := by
  refine .vec (show 2 ≤ E.maxLen by rw [hE]; decide) fun i v hv => ?_
  match i, hv with
  | 0, hv => cases hv; exact .str _ _ _ _ (by rw [hE]; exact h)
  | 1, hv => cases hv; exact .str _ _ _ _ (by rw [hE]; decide)

/-- vectors of strings written by two processes -/
example (s s' : Str) (h : s.length ≤ 1000000) (h' : s'.length ≤ 1000000) (H' : Heap) (hH' : ∀ ρ, HeapRepr ascending H' cycTypes ρ) (ws ws' : WSt)
    (hw : write env cycHeap 5 0 (.vec .str) (.list [.str s, .str []]) WSt.init = .ok () ws)
    (hw' : write ascending H' 9 0 (.vec .str) (.list [.str s', .str []]) WSt.init = .ok () ws') :
    ws.out = ws'.out ↔ Val.list [.str s, .str []] = .list [.str s', .str []] :=
  C92_same_bytes_iff_same_value env ascending ⟨rfl, rfl, rfl, rfl, rfl, rfl, rfl⟩ cycHeap H' cycTypes cycTypes 5 9 0 0 (.vec .str) strings_ordered.1
    strings_ordered.2 (.list []) _ _ ws ws' cycHeap_repr hH' (fun ρ => strings_repr env rfl ρ s h) (fun ρ => strings_repr ascending rfl ρ s' h') rfl hw hw'

end OutputAsKeyDemo

end Verif
