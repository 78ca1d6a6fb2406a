import Verif.Spec.Formats
import Verif.Lemmas.PushRename
import Verif.Props.BinaryRoundTrip
import Verif.Props.JsonGraph
import Verif.Props.JsonNames
import Verif.Props.JsonText
import Verif.Props.JsonReload

/-!
# C82: using both formats
-/

namespace Verif

theorem toJsonDocument_rename {E : Env} (hi : IterNoAddresses E) (hp : IterPerm E) {H H' : Heap} {ρ : Nat → Nat}
    {S : Nat → Prop} (hS : ∀ a, S a → ∃ x, H a = some x ∧ H' (ρ a) = some (x.rename ρ) ∧ ∀ b ∈ x.refs, S b) (n : Nat) (t : Ty) (v : Val)
    (h : ∀ a ∈ v.refs, S a) : toJsonDocument E H' n t (v.rename ρ) = toJsonDocument E H n t v := by
  have hc := fun t => push_rename hi hp hS n t v h
  cases t
  case cls c => exact hc _
  case map => exact hc _
  case vec => exact hc _
  case sview => exact hc _
  case int it => cases it <;> cases v <;> rfl
  case cstr => cases v <;> first | rfl | (rename_i o; cases o <;> rfl)
  all_goals (cases v <;> rfl)

theorem copy_json {E : Env} (hi : IterNoAddresses E) (hp : IterPerm E) {H H' : Heap} {ρ : Nat → Nat} {v v' : Val} (h : GraphCopy H v H' v' ρ)
    (n : Nat) (t : Ty) : push E H' n t v' = push E H n t v ∧ toJsonDocument E H' n t v' = toJsonDocument E H n t v := by
  have hS : ∀ a, Reachable H v a → ∃ x, H a = some x ∧ H' (ρ a) = some (x.rename ρ) ∧ ∀ b ∈ x.refs, Reachable H v b := by
    intro a ha
    obtain ⟨x, h1, h2⟩ := h.content a ha
    exact ⟨x, h1, h2, fun b hb => .step ha h1 hb⟩
  rw [h.root]
  exact ⟨push_rename hi hp hS n t v fun a ha => .direct ha, toJsonDocument_rename hi hp hS n t v fun a ha => .direct ha⟩

/-- **C82**: What has been restored from binary data is written as the same JSON document and text as the original (or, if the object graph
is cyclic, both never come to an end: the equation holds for every recursion budget `k`). -/
theorem C82_restored_object_same_json (E : Env) (hi : IterNoAddresses E) (hp : IterPerm E) (H : Heap) (HT : Nat → Option Ty) (n m : Nat)
    (c : ClassId) (v : Val) (version : Nat) (ws : WSt) (hH : ∀ ρ, HeapRepr E H HT ρ)
    (hv : ∀ ρ, BRepr E HT ρ version 0 (.cls c) (E.defInit (.cls c)) v)
    (hm : n ≤ m + 1) (hw : toBinary E H n c v version = .ok () ws) (rest : Str) :
    ∃ v' rs, fromBinary E m c (ws.out ++ rest) = .ok v' rs ∧ rs.inp = rest ∧
      (∀ k, toJsonDocument E rs.asHeap k (.cls c) v' () = toJsonDocument E H k (.cls c) v ()) ∧
      ∀ D k, toJson E rs.asHeap D k (.cls c) v' () = toJson E H D k (.cls c) v () := by
  obtain ⟨ρ, v', rs, h1, h2, h3⟩ := C27_toBinary_fromBinary E H HT n m c v version ws hH hv hm hw rest
  have hd := fun k => (copy_json hi hp h3 k (.cls c)).2
  refine ⟨v', rs, h1, h2, fun k => by rw [hd k], fun D k => ?_⟩
  unfold toJson
  rw [hd k]

/-- **C82** for values of any type written with `BinarySerializer` and read with `BinaryDeserializer`. -/
theorem C82_restored_value_same_json (E : Env) (hi : IterNoAddresses E) (hp : IterPerm E) (H : Heap) (HT : Nat → Option Ty) (n m vw vr : Nat)
    (t : Ty) (p v : Val) (ws : WSt) (hH : ∀ ρ, HeapRepr E H HT ρ) (hv : ∀ ρ, BRepr E HT ρ vw vr t p v) (hm : n ≤ m)
    (hw : write E H n vw t v WSt.init = .ok () ws) (rest : Str) :
    ∃ v' rs, read E m vr t p (RSt.init (ws.out ++ rest)) = .ok v' rs ∧ rs.inp = rest ∧
      (∀ k, push E rs.asHeap k t v' () = push E H k t v ()) ∧
      (∀ k, toJsonDocument E rs.asHeap k t v' () = toJsonDocument E H k t v ()) ∧
      ∀ D k, toJson E rs.asHeap D k t v' () = toJson E H D k t v () := by
  obtain ⟨ρ, v', rs, h1, h2, h3⟩ := C27_read_yields_what_was_written E H HT n m vw vr t p v ws hH hv hm hw rest
  refine ⟨v', rs, h1, h2, fun k => by rw [(copy_json hi hp h3 k t).1], fun k => by rw [(copy_json hi hp h3 k t).2], fun D k => ?_⟩
  unfold toJson
  rw [(copy_json hi hp h3 k t).2]

/-- **C82** (binary → JSON → object): if no cycle is involved, what is restored from binary data can be sent via JSON: reading the JSON text
yields the tree `w` corresponding to the original object graph (in which nothing is shared anymore). -/
theorem C82_binary_json_object (E : Env) (hE : StrTotal E) (hi : IterNoAddresses E) (hp : IterPerm E) (H : Heap) (hiH : IterIndep E H)
    (HT : Nat → Option Ty) (n m : Nat) (c : ClassId) (v w : Val) (version : Nat) (ws : WSt) (hH : ∀ ρ, HeapRepr E H HT ρ)
    (hv : ∀ ρ, BRepr E HT ρ version 0 (.cls c) (E.defInit (.cls c)) v) (hu : Unfold H v w)
    (hm : n ≤ m + 1) (hw : toBinary E H n c v version = .ok () ws) (rest : Str)
    (D : Dbl) (H0 : Heap) (hr : JRepr E H0 (.cls c) (E.defInit (.cls c)) w)
    (hn : ∀ n j, push E H n (.cls c) v () = .ok j () → ∀ x ∈ JsonText.numbers j, JsonText.Printable D x) :
    ∃ v' rs, fromBinary E m c (ws.out ++ rest) = .ok v' rs ∧ rs.inp = rest ∧
      ∃ N text, ∀ k, N ≤ k → toJson E rs.asHeap D k (.cls c) v' () = .ok text () ∧ fromJson E (textParser D) k (.cls c) text none = .ok w none := by
  obtain ⟨v', rs, h1, h2, -, h4⟩ := C82_restored_object_same_json E hi hp H HT n m c v version ws hH hv hm hw rest
  have hpush : ∀ k, push E H k (.cls c) v () = push E H0 k (.cls c) w () :=
    fun k => C24_shared_objects_are_duplicated E H hiH k (.cls c) v w hu H0
  obtain ⟨N, text, h5⟩ := C52_value_round_trip E H0 hE D (.cls c) w (.inl ⟨c, rfl⟩) hr fun k j hk => hn k j ((hpush k).trans hk)
  refine ⟨v', rs, h1, h2, N, text, fun k hk => ⟨?_, (h5 k hk).2.1⟩⟩
  rw [h4, ← (h5 k hk).1]
  have : push E H k (.cls c) v = push E H0 k (.cls c) w := funext fun _ => hpush k
  unfold toJson toJsonDocument
  simp only [this]

/-- **C82** (JSON → object → binary → object → JSON): Let `w` be what `fromJson` has read from an arbitrary text (with or without errors) and
`text'` be what `toJson` writes for it. If the object (in memory: `v`, its shared pointers referring to objects on the heap `H`) is sent in
binary form then `toJson` writes `text'` for what has been restored, and reading `text'` yields the object read in the first place. -/
theorem C82_json_binary_json (E : Env) (hE : StrTotal E) (hi : IterNoAddresses E) (hp : IterPerm E) (hO : OrderedItems E)
    (D : Dbl) (hD : NeverNaN D) (k1 k2 : Nat) (c : ClassId) (text text' : Str) (j : Json) (w : Val) (s s' : Option ErrSt)
    (H0 : Heap) (hr : Reloadable E H0 (.cls c)) (hs : Settled E H0 (.cls c) (E.defInit (.cls c))) (hl : text.length < 2 ^ 32)
    (hj : textParser D text = .ok j) (ha : TopAccepts (.cls c) j) (h : fromJson E (textParser D) k1 (.cls c) text s = .ok w s')
    (ht : toJson E H0 D k2 (.cls c) w () = .ok text' ())
    (hn : ∀ n j, push E H0 n (.cls c) w () = .ok j () → ∀ x ∈ JsonText.numbers j, JsonText.Printable D x)
    (H : Heap) (HT : Nat → Option Ty) (v : Val) (hu : Unfold H v w) (hiH : IterIndep E H)
    (n m version : Nat) (ws : WSt) (hH : ∀ ρ, HeapRepr E H HT ρ) (hv : ∀ ρ, BRepr E HT ρ version 0 (.cls c) (E.defInit (.cls c)) v)
    (hm : n ≤ m + 1) (hw : toBinary E H n c v version = .ok () ws) (rest : Str) :
    ∃ v' rs, fromBinary E m c (ws.out ++ rest) = .ok v' rs ∧ rs.inp = rest ∧
      ∃ N, ∀ k, N ≤ k → toJson E rs.asHeap D k (.cls c) v' () = .ok text' () ∧ fromJson E (textParser D) k (.cls c) text' none = .ok w none := by
  obtain ⟨v', rs, h1, h2, -, h4⟩ := C82_restored_object_same_json E hi hp H HT n m c v version ws hH hv hm hw rest
  obtain ⟨N, h5⟩ := C65_text_reload E H0 hE hp hO D hD k1 k2 (.cls c) text text' j w s s' (.inl ⟨c, rfl⟩) hr hs hl hj ha h ht hn
  refine ⟨v', rs, h1, h2, N, fun k hk => ⟨?_, (h5 k hk).2.1⟩⟩
  rw [h4, ← (h5 k hk).1]
  have : push E H k (.cls c) v = push E H0 k (.cls c) w := funext fun _ => C24_shared_objects_are_duplicated E H hiH k (.cls c) v w hu H0
  unfold toJson toJsonDocument
  simp only [this]

/-! ## The hypotheses can be met -/

namespace FormatsDemo
open Demo RoundTripDemo ReloadDemo

theorem noAddresses : IterNoAddresses env := by
  constructor
  · intro ρ l
    show (Val.renameL ρ l).reverse = Val.renameL ρ l.reverse
    rw [Val.renameL_eq, Val.renameL_eq, List.map_reverse]
  · intro ρ l
    show (Val.renameKV ρ l).reverse = Val.renameKV ρ l.reverse
    rw [Val.renameKV_eq, Val.renameKV_eq, List.map_reverse]

/-- two nodes referring to each other -/
example : ∃ ws v' rs, toBinary env cycHeap 10 2 (.obj [(fV.key, .int 1), (fN.key, .ref 2000)]) 0 = .ok () ws ∧
    fromBinary env 9 2 (ws.out ++ [1, 2, 3]) = .ok v' rs ∧
    ∀ k, toJsonDocument env rs.asHeap k (.cls 2) v' () = toJsonDocument env cycHeap k (.cls 2) (.obj [(fV.key, .int 1), (fN.key, .ref 2000)]) () := by
  have h : toBinary env cycHeap 10 2 (.obj [(fV.key, .int 1), (fN.key, .ref 2000)]) 0 =
      .ok () ⟨[0, 0, 0, 1, 1, 0x47, 0xD0, 0, 0, 0, 2, 1, 0x43, 0xE8, 0, 0, 0, 1, 2, 0x47, 0xD0], [1000, 2000]⟩ := by decide +kernel
  obtain ⟨v', rs, h1, -, h2, -⟩ := C82_restored_object_same_json env noAddresses demo_iterPerm cycHeap cycTypes 10 9 2 _ 0 _ cycHeap_repr
    (fun ρ => node_repr ρ 0 0 _ _ _ (by decide) (by decide) rfl (by decide)) (by decide) h [1, 2, 3]
  exact ⟨_, v', rs, h, h1, h2⟩

/-- a list of two nodes in memory -/
def listHeap : Heap := fun a => if a = 1000 then some (.obj [(fV.key, .int 2), (fN.key, .null)]) else none
def listTypes : Nat → Option Ty := fun a => if a = 1000 then some (.cls 2) else none
def inMemory : Val := .obj [(fV.key, .int 1), (fN.key, .ref 1000)]
/-- what is read from JSON -/
def tree : Val := .obj [(fV.key, .int 1), (fN.key, .ptr (.obj [(fV.key, .int 2), (fN.key, .null)]))]
/-- `{"next":{"next":null,"v":2}, "v":1}` -/
def text : Str := [0x7b, 0x22, 0x6e, 0x65, 0x78, 0x74, 0x22, 0x3a, 0x7b, 0x22, 0x6e, 0x65, 0x78, 0x74, 0x22, 0x3a, 0x6e, 0x75, 0x6c, 0x6c, 0x2c, 0x22, 0x76, 0x22, 0x3a, 0x32, 0x7d, 0x2c, 0x20, 0x22, 0x76, 0x22, 0x3a, 0x31, 0x7d]
/-- `{"v":1,"next":{"v":2,"next":null}}` -/
def text' : Str := [0x7b, 0x22, 0x76, 0x22, 0x3a, 0x31, 0x2c, 0x22, 0x6e, 0x65, 0x78, 0x74, 0x22, 0x3a, 0x7b, 0x22, 0x76, 0x22, 0x3a, 0x32, 0x2c, 0x22, 0x6e, 0x65, 0x78, 0x74, 0x22, 0x3a, 0x6e, 0x75, 0x6c, 0x6c, 0x7d, 0x7d]

theorem list_repr (ρ : Nat → Nat) (vw vr : Nat) (p x : Val) (i : Int) (h1 : -2 ^ 31 ≤ i) (h2 : i < 2 ^ 31)
    (hx : ∀ vw vr, BRepr env listTypes ρ vw vr (.sptr (.cls 2)) .null x) :
    BRepr env listTypes ρ vw vr (.cls 2) (.obj [(fV.key, p), (fN.key, .null)]) (.obj [(fV.key, .int i), (fN.key, x)]) := by
  refine .cls (Q := [(vw, vr, fV), (vw, vr, fN)]) ?_ rfl (show [fV.key, fN.key].Nodup by decide) ?_ ?_ ?_ ?_
  · exact FlatBin.plain (ci := node) (bs := []) (fs := []) rfl rfl rfl (.nil _ _) (by rfl) (.nil _ _)
  · intro q hq
    simp only [List.mem_cons, List.not_mem_nil, or_false] at hq
    rcases hq with rfl | rfl
    · exact ⟨.int i, rfl⟩
    · exact ⟨x, rfl⟩
  · intro q hq p' v hp hv
    simp only [List.mem_cons, List.not_mem_nil, or_false] at hq
    rcases hq with rfl | rfl
    · cases hv
      exact .int _ _ _ _ .i32 (by decide) h1 h2
    · cases hv
      cases hp
      exact hx _ _
  · intro q hq v hl
    simp only [List.mem_cons, List.not_mem_nil, or_false] at hq
    have hne : fV.key ≠ fN.key := by decide
    rcases hq with rfl | rfl
    · rw [List.filter_cons, if_pos (by simp), List.filter_cons, if_neg (by simpa using hne.symm)] at hl
      simp at hl
    · rw [List.filter_cons, if_neg (by simpa using hne), List.filter_cons, if_pos (by simp)] at hl
      simp at hl
  · intro k hk
    have h1 := hk (vw, vr, fV) (by simp)
    have h2 := hk (vw, vr, fN) (by simp)
    have e1 : (k == fV.key) = false := by simpa using h1.symm
    have e2 : (k == fN.key) = false := by simpa using h2.symm
    simp [Store.get?, List.lookup_cons, e1, e2]

theorem listHeap_repr (ρ : Nat → Nat) : HeapRepr env listHeap listTypes ρ := by
  intro a t h
  unfold listTypes at h
  split at h
  · next ha =>
    cases h
    subst ha
    exact ⟨_, rfl, list_repr ρ _ _ _ _ _ (by decide) (by decide) fun _ _ => .sptrNone _ _ _ _⟩
  · cases h

theorem inMemory_repr (ρ : Nat → Nat) : BRepr env listTypes ρ 0 0 (.cls 2) (env.defInit (.cls 2)) inMemory :=
  list_repr ρ _ _ _ _ _ (by decide) (by decide) fun _ _ => .sptrSome rfl (by decide)

theorem unfolds : Unfold listHeap inMemory tree :=
  .obj rfl (.cons (.leaf trivial) (.cons (.ref rfl (.obj rfl (.cons (.leaf trivial) (.cons (.leaf trivial) .nil)))) .nil))

theorem iterIndep : IterIndep env listHeap := ⟨fun _ _ h => forall₂_reverse h, fun _ _ h => forall₂_reverse h⟩

theorem written : toBinary env listHeap 10 2 inMemory 0 = .ok () ⟨[0, 0, 0, 1, 1, 0x43, 0xE8, 0, 0, 0, 2, 0], [1000]⟩ := by decide +kernel

def doc : Json := .obj [(⟨lit "v", .literal⟩, .num (.int 1)), (⟨lit "next", .literal⟩,
  .obj [(⟨lit "v", .literal⟩, .num (.int 2)), (⟨lit "next", .literal⟩, .null)])]

theorem pushed (H : Heap) : push env H 9 (.cls 2) tree () = .ok doc () := rfl

theorem numbers_ok (D : Dbl) (H H' : Heap) (v : Val) (hv : ∀ n, push env H n (.cls 2) v () = push env H' n (.cls 2) tree ()) (n : Nat) (j : Json)
    (h : push env H n (.cls 2) v () = .ok j ()) :
    ∀ x ∈ JsonText.numbers j, JsonText.Printable D x := by
  rw [hv] at h
  have h1 := push_mono (Nat.le_max_left n 9) h (by simp)
  have h2 := push_mono (Nat.le_max_right n 9) (pushed H') (by simp)
  rw [h1] at h2
  cases h2
  intro x hx
  have : x = .int 1 ∨ x = .int 2 := by simpa [doc, JsonText.numbers, JsonText.numbersMembers] using hx
  rcases this with rfl | rfl <;> exact ⟨by decide, by decide⟩

theorem parsed : textParser dbl' text = .ok (.obj [(⟨lit "next", .copied⟩, .obj [(⟨lit "next", .copied⟩, .null), (⟨lit "v", .copied⟩, .num (.int 2))]),
    (⟨lit "v", .copied⟩, .num (.int 1))]) := rfl

theorem read_text : fromJson env (textParser dbl') 9 (.cls 2) text none = .ok tree none := rfl

theorem printed : toJson env H0 dbl' 9 (.cls 2) tree () = .ok text' () := by
  have h : (match toJson env H0 dbl' 9 (.cls 2) tree () with
    | .ok t _ => decide (t = text')
    | _ => false) = true := by decide +kernel
  split at h
  · next t _ he => rw [he, of_decide_eq_true h]
  · cases h

/-- reading the text, sending the list in binary form and writing it as text again -/
example : ∃ v' rs, fromBinary env 9 2 [0, 0, 0, 1, 1, 0x43, 0xE8, 0, 0, 0, 2, 0] = .ok v' rs ∧
      ∃ N, ∀ k, N ≤ k → toJson env rs.asHeap dbl' k (.cls 2) v' () = .ok text' () ∧ fromJson env (textParser dbl') k (.cls 2) text' none = .ok tree none := by
  obtain ⟨v', rs, h1, -, h2⟩ := C82_json_binary_json env demo_strTotal noAddresses demo_iterPerm ConformDemo.ordered dbl' neverNaN 9 9 2 text text' _ tree
    none none H0 (reloadable (by simp [SafetyDemo.demoTy])) (settled_node settled_indet) (by decide +kernel) parsed ⟨_, rfl⟩ read_text printed
    (numbers_ok dbl' H0 H0 tree fun _ => rfl) listHeap listTypes inMemory unfolds iterIndep 10 9 0 _ listHeap_repr inMemory_repr (by decide) written []
  exact ⟨v', rs, h1, h2⟩

/-- reading the binary data and sending it as JSON -/
example : ∃ v' rs, fromBinary env 9 2 [0, 0, 0, 1, 1, 0x43, 0xE8, 0, 0, 0, 2, 0] = .ok v' rs ∧
      ∃ N t, ∀ k, N ≤ k → toJson env rs.asHeap dbl' k (.cls 2) v' () = .ok t () ∧ fromJson env (textParser dbl') k (.cls 2) t none = .ok tree none := by
  have hr : JRepr env H0 (.cls 2) (env.defInit (.cls 2)) tree := by
    refine C65_read_is_representable env H0 demo_strTotal demo_iterPerm ConformDemo.ordered 9 (.cls 2) doc _ tree none none
      (reloadable (by simp [SafetyDemo.demoTy])) (settled_node settled_indet) ?_ rfl ?_
    · have h0 : Storable (.obj [(⟨lit "v", .literal⟩, .num (.int 2)), (⟨lit "next", .literal⟩, .null)]) := by
        refine .obj ?_ ?_ <;> intro k j h <;> simp only [List.mem_cons, Prod.mk.injEq, List.not_mem_nil, or_false] at h <;>
          rcases h with ⟨rfl, rfl⟩ | ⟨rfl, rfl⟩
        · decide
        · decide
        · exact .int (by decide) (by decide)
        · exact .null
      refine .obj ?_ ?_ <;> intro k j h <;> simp only [List.mem_cons, Prod.mk.injEq, List.not_mem_nil, or_false] at h <;>
        rcases h with ⟨rfl, rfl⟩ | ⟨rfl, rfl⟩
      · decide
      · decide
      · exact .int (by decide) (by decide)
      · exact h0
    · have node : ∀ i x, ValidObj env H0 false (.sptr (.cls 2)) x → ValidObj env H0 false (.cls 2) (.obj [(fV.key, .int i), (fN.key, x)]) := by
        intro i x hx
        refine .cls (fun f => if f = fV then .int i else x) flatPush2 ?_ ?_ <;> intro f hf <;>
          simp only [List.mem_cons, List.not_mem_nil, or_false] at hf <;> rcases hf with rfl | rfl
        · rfl
        · rfl
        · exact .int .i32 _ (by decide) (by decide) (by decide)
        · exact hx
      exact node _ _ (.sptr (node _ _ (.sptrNull _)))
  obtain ⟨v', rs, h1, -, h2⟩ := C82_binary_json_object env demo_strTotal noAddresses demo_iterPerm listHeap iterIndep listTypes 10 9 2 inMemory tree 0 _
    listHeap_repr inMemory_repr unfolds (by decide) written [] dbl' H0 hr
    (numbers_ok dbl' listHeap H0 inMemory fun n => C24_shared_objects_are_duplicated env listHeap iterIndep n (.cls 2) inMemory tree unfolds H0)
  exact ⟨v', rs, h1, h2⟩

end FormatsDemo

end Verif
