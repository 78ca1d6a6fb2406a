import Verif.Spec.BinTypeChange
import Verif.Props.BinaryForm
import Verif.Props.BinaryRoundTrip

/-!
# C91: changing types without changing the binary representation
-/

namespace Verif

/-! ## Lemmas: parts which agree when unfolded -/

/-- `Agree E E' R ps qs`: unfolding objects in `ps` and `qs` leads to the same parts. -/
inductive Agree (E E' : Env) (R : Nat → Option (Ty × Ty)) : List BinPart → List BinPart → Prop
  | nil : Agree E E' R [] []
  | bytes (bs) {ps qs} : Agree E E' R ps qs → Agree E E' R (.bytes bs :: ps) (.bytes bs :: qs)
  | throws (e) {ps qs} : Agree E E' R ps qs → Agree E E' R (.throws e :: ps) (.throws e :: qs)
  | shared {t t' a ps qs} : R a = some (t, t') → Agree E E' R ps qs → Agree E E' R (.shared t a :: ps) (.shared t' a :: qs)
  | left {ver t v ps qs} : Agree E E' R (contents E ver t v ++ ps) qs → Agree E E' R (.value ver t v :: ps) qs
  | right {ver t v ps qs} : Agree E E' R ps (contents E' ver t v ++ qs) → Agree E E' R ps (.value ver t v :: qs)

section
variable {E E' : Env} {R : Nat → Option (Ty × Ty)} {H H' : Heap}

def swapR (R : Nat → Option (Ty × Ty)) : Nat → Option (Ty × Ty) := fun a => (R a).map Prod.swap

theorem swapR_swapR (R : Nat → Option (Ty × Ty)) : swapR (swapR R) = R := by
  funext a; unfold swapR; cases R a <;> rfl

theorem Agree.symm {ps qs : List BinPart} (h : Agree E E' R ps qs) : Agree E' E (swapR R) qs ps := by
  induction h with
  | nil => exact .nil
  | bytes bs _ ih => exact .bytes bs ih
  | throws e _ ih => exact .throws e ih
  | shared h _ ih => exact .shared (by unfold swapR; rw [h]; rfl) ih
  | left _ ih => exact .right ih
  | right _ ih => exact .left ih

/-- `qs'` is a representation of `qs` -/
def Repres (E : Env) (H : Heap) (qs' qs : List BinPart) : Prop :=
  ∀ seen bs r, Layout E H qs' seen bs r → Layout E H qs seen bs r

theorem Repres.value {ver : Nat} {t : Ty} {v : Val} {qs' qs : List BinPart} (h : Repres E H qs' (contents E ver t v ++ qs)) :
    Repres E H qs' (.value ver t v :: qs) := fun _ _ _ hl => .value (h _ _ _ hl)

theorem agree_nil {ps qs : List BinPart} (h : Agree E E' R ps qs) (hp : ps = []) : Repres E' H' [] qs := by
  induction h with
  | nil => exact fun _ _ _ h => h
  | right _ ih => exact (ih hp).value
  | _ => cases hp

theorem agree_bytes {ps0 qs ps : List BinPart} {bs : Str} (h : Agree E E' R ps0 qs) (hp : ps0 = .bytes bs :: ps) :
    ∃ qs', Agree E E' R ps qs' ∧ Repres E' H' (.bytes bs :: qs') qs := by
  induction h with
  | bytes bs' h _ => cases hp; exact ⟨_, h, fun _ _ _ h => h⟩
  | right _ ih =>
    obtain ⟨qs', h1, h2⟩ := ih hp
    exact ⟨qs', h1, h2.value⟩
  | _ => cases hp

theorem agree_throws {ps0 qs ps : List BinPart} {e : BExc} (h : Agree E E' R ps0 qs) (hp : ps0 = .throws e :: ps) :
    ∃ qs', Agree E E' R ps qs' ∧ Repres E' H' (.throws e :: qs') qs := by
  induction h with
  | throws e' h _ => cases hp; exact ⟨_, h, fun _ _ _ h => h⟩
  | right _ ih =>
    obtain ⟨qs', h1, h2⟩ := ih hp
    exact ⟨qs', h1, h2.value⟩
  | _ => cases hp

theorem agree_shared {ps0 qs ps : List BinPart} {t : Ty} {a : Nat} (h : Agree E E' R ps0 qs) (hp : ps0 = .shared t a :: ps) :
    ∃ t' qs', R a = some (t, t') ∧ Agree E E' R ps qs' ∧ Repres E' H' (.shared t' a :: qs') qs := by
  induction h with
  | shared h1 h2 _ => cases hp; exact ⟨_, _, h1, h2, fun _ _ _ h => h⟩
  | right _ ih =>
    obtain ⟨t', qs', h0, h1, h2⟩ := ih hp
    exact ⟨t', qs', h0, h1, h2.value⟩
  | _ => cases hp

theorem agree_value {ps0 qs ps : List BinPart} {ver : Nat} {t : Ty} {v : Val} (h : Agree E E' R ps0 qs) (hp : ps0 = .value ver t v :: ps) :
    Agree E E' R (contents E ver t v ++ ps) qs := by
  induction h with
  | left h _ => cases hp; exact h
  | right _ ih => exact .right (ih hp)
  | _ => cases hp

theorem agree_uninit {ps0 qs ps : List BinPart} (h : Agree E E' R ps0 qs) (hp : ps0 = .uninitialised :: ps) : False := by
  induction h with
  | right _ ih => exact ih hp
  | _ => cases hp

/-- Adding an object on both sides -/
def Cons (E E' : Env) (R : Nat → Option (Ty × Ty)) (vw : Nat) (t : Ty) (v : Val) (vw' : Nat) (t' : Ty) (v' : Val) : Prop :=
  ∀ ps qs, Agree E E' R ps qs → Agree E E' R (.value vw t v :: ps) (.value vw' t' v' :: qs)

theorem layout_agree (hH : ∀ a t t', R a = some (t, t') → ∃ x x', H a = some x ∧ H' a = some x' ∧ Cons E E' R 0 t x 0 t' x')
    {ps : List BinPart} {seen : List Nat} {bs : Str} {r : Ending} (hl : Layout E H ps seen bs r) :
    ∀ qs, Agree E E' R ps qs → Layout E' H' qs seen bs r := by
  induction hl with
  | done seen => exact fun qs h => agree_nil h rfl _ _ _ (.done seen)
  | bytes _ ih =>
    intro qs h
    obtain ⟨qs', h1, h2⟩ := agree_bytes (H' := H') h rfl
    exact h2 _ _ _ (.bytes (ih _ h1))
  | value _ ih => exact fun qs h => ih _ (agree_value h rfl)
  | first h1 h2 _ ih =>
    intro qs h
    obtain ⟨t', qs', g1, g2, g3⟩ := agree_shared (H' := H') h rfl
    obtain ⟨x, x', e1, e2, e3⟩ := hH _ _ _ g1
    rw [h2] at e1; cases e1
    exact g3 _ _ _ (.first h1 e2 (ih _ (e3 _ _ g2)))
  | again h1 _ ih =>
    intro qs h
    obtain ⟨t', qs', g1, g2, g3⟩ := agree_shared (H' := H') h rfl
    exact g3 _ _ _ (.again h1 (ih _ g2))
  | throws =>
    intro qs h
    obtain ⟨qs', h1, h2⟩ := agree_throws (H' := H') h rfl
    exact h2 _ _ _ .throws
  | uninitialised => exact fun qs h => (agree_uninit h rfl).elim
  | dangling h1 h2 =>
    intro qs h
    obtain ⟨t', qs', g1, g2, g3⟩ := agree_shared (H' := H') h rfl
    obtain ⟨x, x', e1, -⟩ := hH _ _ _ g1
    rw [h2] at e1; cases e1

/-! ### unfolding one side -/

theorem left_number {t : Ty} {v : Val} {k : Nat} {i : Int} {ver : Nat} {ps qs : List BinPart} (h : NumberOf t v k i)
    (ha : Agree E E' R (.bytes (twosComplement k i) :: ps) qs) : Agree E E' R (.value ver t v :: ps) qs := by
  cases h with
  | bool b =>
    refine .left ?_
    have : twosComplement 1 (if b = true then 1 else 0) = [if b = true then 1 else 0] := by cases b <;> decide
    rw [this] at ha
    exact ha
  | int it i h => exact .left (by simp only [contents, if_neg h]; exact ha)
  | enum u i h => exact .left (.left (by simp only [contents, if_neg h]; exact ha))
  | dateTime i => exact .left ha
  | timeSpan i => exact .left ha

theorem left_nothing {t : Ty} {v : Val} {ver : Nat} {ps qs : List BinPart} (h : NoObject t v) (ha : Agree E E' R (.bytes [0] :: ps) qs) :
    Agree E E' R (.value ver t v :: ps) qs := by
  cases h <;> exact .left ha

theorem left_owned {t u : Ty} {v w : Val} {ver : Nat} {ps qs : List BinPart} (h : Owns t v u w)
    (ha : Agree E E' R (.bytes [1] :: .value 0 u w :: ps) qs) : Agree E E' R (.value ver t v :: ps) qs := by
  cases h <;> exact .left ha

theorem left_elements {t : Ty} {v : Val} {k : Nat} {xs : List (Ty × Val)} {ver : Nat} {ps qs : List BinPart} (h : HasElements E t v k xs)
    (ha : Agree E E' R (varUInt k :: (xs.map (fun x => .value 0 x.1 x.2) ++ ps)) qs) : Agree E E' R (.value ver t v :: ps) qs := by
  cases h with
  | vec t vs => exact .left (by simp only [contents]; simpa [Function.comp_def] using ha)
  | set hashed multi t vs => exact .left (by simp only [contents]; simpa [Function.comp_def] using ha)
  | map hashed multi k t kvs => exact .left (by simp only [contents]; simpa [Function.comp_def] using ha)

def Component.part : Component → BinPart
  | .version n => varUInt n
  | .object ver t v => .value ver t v

theorem map_memberPart {own : Nat} {st : Store} {w : Field → Val} {fs : List (Guard × Field)}
    (h : ∀ f ∈ activeFields own fs, st.get? f.key = some (w f)) :
    ((fs.filter fun gf => gf.1.holds own).map fun gf => memberPart own st gf.2) =
      ((activeFields own fs).map fun f => Component.object own f.ty (w f)).map Component.part := by
  unfold activeFields at h ⊢
  rw [List.map_map, List.map_map]
  refine List.map_congr_left fun gf hgf => ?_
  simp only [Function.comp_apply, memberPart, Component.part]
  rw [h gf.2 (List.mem_map_of_mem hgf)]

/-- replacing the rest of the parts -/
theorem agree_under {ps1 ps2 : List BinPart} (hr : ∀ qs, Agree E E' R ps1 qs → Agree E E' R ps2 qs) {ps0 qs : List BinPart}
    (h : Agree E E' R ps0 qs) : ∀ l, ps0 = l ++ ps1 → Agree E E' R (l ++ ps2) qs := by
  induction h with
  | nil =>
    intro l hl
    obtain ⟨rfl, rfl⟩ := List.append_eq_nil_iff.1 hl.symm
    exact hr _ .nil
  | bytes bs h ih =>
    intro l hl
    cases l with
    | nil => exact hr _ (by rw [List.nil_append] at hl; rw [← hl]; exact .bytes bs h)
    | cons p l => cases hl; exact .bytes bs (ih l rfl)
  | throws e h ih =>
    intro l hl
    cases l with
    | nil => exact hr _ (by rw [List.nil_append] at hl; rw [← hl]; exact .throws e h)
    | cons p l => cases hl; exact .throws e (ih l rfl)
  | shared h1 h ih =>
    intro l hl
    cases l with
    | nil => exact hr _ (by rw [List.nil_append] at hl; rw [← hl]; exact .shared h1 h)
    | cons p l => cases hl; exact .shared h1 (ih l rfl)
  | @left ver t v _ _ h ih =>
    intro l hl
    cases l with
    | nil => exact hr _ (by rw [List.nil_append] at hl; rw [← hl]; exact .left h)
    | cons p l =>
      cases hl
      have := ih (contents E ver t v ++ l) (by rw [List.append_assoc]; rfl)
      rw [List.append_assoc] at this
      exact .left this
  | right _ ih => exact fun l hl => .right (ih l hl)

theorem left_componentsOf {version : Nat} {st : Store} {cs : List ClassId} {xs : List Component} (h : ComponentsOf E version st cs xs) :
    ∀ ps qs, Agree E E' R (xs.map Component.part ++ ps) qs →
      Agree E E' R (cs.map (fun c => .value version (.cls c) (.obj st)) ++ ps) qs := by
  induction h with
  | nil => exact fun ps qs h => h
  | @plain c ci cs bs xs w h1 h2 _ h4 _ ih1 ih2 =>
    intro ps qs h
    refine .left ?_
    simp only [contents, h1, classParts, h2, List.append_assoc]
    refine ih1 _ _ ?_
    simp only [Option.isSome_none, Bool.false_eq_true, if_false, List.nil_append]
    rw [map_memberPart h4]
    rw [List.map_append, List.append_assoc] at h
    have := agree_under (ps2 := cs.map (fun c => .value version (.cls c) (.obj st)) ++ ps) (fun qs h => ih2 ps qs h) h _ rfl
    rw [List.map_append, List.append_assoc] at this
    exact this
  | @versioned c ci d cs bs xs w eff h1 h2 h3 _ h4 _ ih1 ih2 =>
    intro ps qs h
    refine .left ?_
    simp only [contents, h1, classParts, h2, List.append_assoc]
    refine ih1 _ _ ?_
    simp only [Option.isSome_some, if_true, ← h3]
    rw [map_memberPart h4]
    rw [List.map_append, List.append_assoc] at h
    have := agree_under (ps2 := cs.map (fun c => .value version (.cls c) (.obj st)) ++ ps) (fun qs h => ih2 ps qs h) h _ rfl
    rw [List.map_append, List.append_assoc, List.map_cons] at this
    exact this

theorem left_components {version : Nat} {t : Ty} {v : Val} {xs : List Component} {ps qs : List BinPart} (h : HasComponents E version t v xs)
    (ha : Agree E E' R (xs.map Component.part ++ ps) qs) : Agree E E' R (.value version t v :: ps) qs := by
  cases h with
  | pair a b v w => exact .left ha
  | cls h => exact left_componentsOf h ps qs ha

theorem left_mono {ts : List Ty} {i : Nat} {v : Val} {ver : Nat} {ps qs : List BinPart} (h : ts[i]? = some .mono)
    (ha : Agree E E' R (.bytes [UInt8.ofNat i] :: ps) qs) : Agree E E' R (.value ver (.variant ts) (.alt i v) :: ps) qs :=
  .left (by simp only [contents, h]; exact ha)

theorem left_alternative {ts : List Ty} {i : Nat} {t : Ty} {v : Val} {ver : Nat} {ps qs : List BinPart} (h : ts[i]? = some t) (ht : t ≠ .mono)
    (ha : Agree E E' R (.bytes [UInt8.ofNat i] :: .value 0 t v :: ps) qs) : Agree E E' R (.value ver (.variant ts) (.alt i v) :: ps) qs :=
  .left (by simp only [contents, h, if_neg ht]; exact ha)

/-- whatever can be done on the left can be done on the right -/
theorem flip {p : BinPart} {l ps qs : List BinPart} (h : ∀ qs', Agree E' E (swapR R) (l ++ qs) qs' → Agree E' E (swapR R) (p :: qs) qs')
    (ha : Agree E E' R ps (l ++ qs)) : Agree E E' R ps (p :: qs) := by
  have := (h _ ha.symm).symm
  rwa [swapR_swapR] at this

theorem agree_varUInt (k : Nat) {ps qs : List BinPart} (h : Agree E E' R ps qs) : Agree E E' R (varUInt k :: ps) (varUInt k :: qs) := by
  unfold varUInt
  split
  · exact .bytes _ h
  · exact .throws _ h

/-! ### the same content, the same parts -/

theorem SameBinary.cons {vw vw' : Nat} {t t' : Ty} {v v' : Val} (h : SameBinary E E' R vw t v vw' t' v') : Cons E E' R vw t v vw' t' v' := by
  induction h with
  | number h1 h2 => exact fun ps qs h => left_number h1 (flip (l := [_]) (fun _ => left_number h2) (.bytes _ h))
  | f32 => exact fun ps qs h => .left (.right (.bytes _ h))
  | f64 => exact fun ps qs h => .left (.right (.bytes _ h))
  | str => exact fun ps qs h => .left (.right (agree_varUInt _ (.bytes _ h)))
  | nothing h1 h2 => exact fun ps qs h => left_nothing h1 (flip (l := [_]) (fun _ => left_nothing h2) (.bytes _ h))
  | owned h1 h2 _ ih => exact fun ps qs h => left_owned h1 (flip (l := [_, _]) (fun _ => left_owned h2) (.bytes _ (ih _ _ h)))
  | shared h => exact fun ps qs ha => .left (.right (.shared h ha))
  | @elements _ _ t v t' v' k xs ys h1 h2 h3 hs ih =>
    intro ps qs h
    refine left_elements h1 (flip (l := varUInt k :: ys.map fun x => .value 0 x.1 x.2) (fun qs' => left_elements h2) (agree_varUInt k ?_))
    clear h1 h2 hs
    induction xs generalizing ys with
    | nil =>
      cases ys with
      | nil => exact h
      | cons y ys => cases h3
    | cons x xs ihx =>
      cases ys with
      | nil => cases h3
      | cons y ys =>
        exact ih 0 x y rfl rfl _ _ (ihx (ys := ys) (by simpa using h3) fun i x y hx hy => ih (i + 1) x y hx hy)
  | @components _ _ t v t' v' xs ys h1 h2 h3 h4 hs ih =>
    intro ps qs h
    refine left_components h1 (flip (l := ys.map Component.part) (fun qs' => left_components h2) ?_)
    clear h1 h2 hs
    induction xs generalizing ys with
    | nil =>
      cases ys with
      | nil => exact h
      | cons y ys => cases h3
    | cons x xs ihx =>
      cases ys with
      | nil => cases h3
      | cons y ys =>
        have hrest := ihx (ys := ys) (by simpa using h3) (fun i n => h4 (i + 1) n)
          (fun i a b c d e f hx hy => ih (i + 1) a b c d e f hx hy)
        cases x with
        | version n =>
          have := (h4 0 n).1 rfl
          cases this
          exact agree_varUInt n hrest
        | object a b c =>
          cases y with
          | version n =>
            have := (h4 0 n).2 rfl
            cases this
          | object d e f => exact ih 0 a b c d e f rfl rfl _ _ hrest
  | mono h1 h2 => exact fun ps qs h => left_mono h1 (flip (l := [_]) (fun _ => left_mono h2) (.bytes _ h))
  | alternative h1 h2 h3 h4 _ ih =>
    exact fun ps qs h => left_alternative h1 h3 (flip (l := [_, _]) (fun _ => left_alternative h2 h4) (.bytes _ (ih _ _ h)))

end

/-! ## Theorems -/

theorem SameBinary.layout {E E' : Env} {R : Nat → Option (Ty × Ty)} {H H' : Heap} (hH : SameHeap E E' R H H') {vw vw' : Nat} {t t' : Ty}
    {v v' : Val} (h : SameBinary E E' R vw t v vw' t' v') {seen : List Nat} {bytes : Str} {r : Ending}
    (hl : Layout E H [.value vw t v] seen bytes r) : Layout E' H' [.value vw' t' v'] seen bytes r :=
  layout_agree (fun a t t' ha => by
    obtain ⟨x, x', h1, h2, h3⟩ := hH a t t' ha
    exact ⟨x, x', h1, h2, h3.cons⟩) hl _ (h.cons _ _ .nil)

theorem SameBinary.symm {E E' : Env} {R : Nat → Option (Ty × Ty)} {vw vw' : Nat} {t t' : Ty} {v v' : Val}
    (h : SameBinary E E' R vw t v vw' t' v') : SameBinary E' E (swapR R) vw' t' v' vw t v := by
  induction h with
  | number h1 h2 => exact .number h2 h1
  | f32 => exact .f32 _ _ _
  | f64 => exact .f64 _ _ _
  | str => exact .str _ _ _
  | nothing h1 h2 => exact .nothing h2 h1
  | owned h1 h2 _ ih => exact .owned h2 h1 ih
  | shared h => exact .shared (by unfold swapR; rw [h]; rfl)
  | elements h1 h2 h3 _ ih => exact .elements h2 h1 h3.symm fun i x y hx hy => ih i y x hy hx
  | components h1 h2 h3 h4 _ ih =>
    exact .components h2 h1 h3.symm (fun i n => (h4 i n).symm) fun i a b c d e f hx hy => ih i d e f a b c hy hx
  | mono h1 h2 => exact .mono h2 h1
  | alternative h1 h2 h3 h4 _ ih => exact .alternative h2 h1 h4 h3 ih

theorem SameHeap.symm {E E' : Env} {R : Nat → Option (Ty × Ty)} {H H' : Heap} (h : SameHeap E E' R H H') :
    SameHeap E' E (swapR R) H' H := by
  intro a t t' ha
  unfold swapR at ha
  cases hR : R a with
  | none => rw [hR] at ha; cases ha
  | some q =>
    rw [hR] at ha
    cases ha
    obtain ⟨x, x', h1, h2, h3⟩ := h a _ _ hR
    exact ⟨x', x, h2, h1, h3.symm⟩

theorem SameBinary.write {E E' : Env} {R : Nat → Option (Ty × Ty)} {H H' : Heap} (hH : SameHeap E E' R H H') {vw vw' : Nat} {t t' : Ty}
    {v v' : Val} (h : SameBinary E E' R vw t v vw' t' v') (s : WSt) :
    (∀ n s', Verif.write E H n vw t v s = .ok () s' → ∃ n', Verif.write E' H' n' vw' t' v' s = .ok () s') ∧
    (∀ n e s', Verif.write E H n vw t v s = .exc e s' → ∃ n' s'', Verif.write E' H' n' vw' t' v' s = .exc e s'' ∧ s''.out = s'.out) := by
  obtain ⟨out, seen⟩ := s
  constructor
  · intro n s' hw
    obtain ⟨bytes, hb⟩ := C60_only_appends E H n vw t v _ _ hw
    obtain ⟨out', seen'⟩ := s'
    simp only at hb
    subst hb
    exact (C60_binary_form ..).2 (h.layout hH ((C60_binary_form ..).1 ⟨n, hw⟩))
  · intro n e s' hw
    have ha := write_appends E H n vw t v ⟨out, seen⟩
    rw [hw] at ha
    obtain ⟨bytes, hb⟩ := ha.1
    have hb : s'.out = out ++ bytes := hb.symm
    obtain ⟨n', s'', h1, h2⟩ := (C60_exceptions ..).2 (h.layout hH ((C60_exceptions ..).1 ⟨n, s', hw, hb⟩))
    exact ⟨n', s'', h1, by rw [h2, hb]⟩

/-- **C91**: objects with the same content and structure are written as the same bytes, whatever their types are and whatever has been
written before; if writing one of them throws, then so does writing the other one, after the same bytes. -/
theorem C91_same_bytes (E E' : Env) (R : Nat → Option (Ty × Ty)) (H H' : Heap) (hH : SameHeap E E' R H H') (vw vw' : Nat) (t t' : Ty)
    (v v' : Val) (h : SameBinary E E' R vw t v vw' t' v') (s : WSt) :
    (∀ s', (∃ n, write E H n vw t v s = .ok () s') ↔ ∃ n, write E' H' n vw' t' v' s = .ok () s') ∧
    (∀ e out, (∃ n s', write E H n vw t v s = .exc e s' ∧ s'.out = out) ↔ ∃ n s', write E' H' n vw' t' v' s = .exc e s' ∧ s'.out = out) := by
  have h1 := h.write hH s
  have h2 := h.symm.write hH.symm s
  refine ⟨fun s' => ⟨fun ⟨n, hn⟩ => h1.1 n s' hn, fun ⟨n, hn⟩ => h2.1 n s' hn⟩, fun e out => ⟨?_, ?_⟩⟩
  · rintro ⟨n, s', hn, rfl⟩
    obtain ⟨n', s'', g1, g2⟩ := h1.2 n e s' hn
    exact ⟨n', s'', g1, g2⟩
  · rintro ⟨n, s', hn, rfl⟩
    obtain ⟨n', s'', g1, g2⟩ := h2.2 n e s' hn
    exact ⟨n', s'', g1, g2⟩

/-- **C91**: a program which uses other types restores what has been written: what one program has written for `v` is read by the other
program as a copy of the object graph `v'` which has the same content. -/
theorem C91_restored_as_other_type (E E' : Env) (R : Nat → Option (Ty × Ty)) (H H' : Heap) (hH : SameHeap E E' R H H')
    (HT' : Nat → Option Ty) (n vw vw' vr : Nat) (t t' : Ty) (p v v' : Val) (h : SameBinary E E' R vw t v vw' t' v') (ws : WSt)
    (hH' : ∀ ρ, HeapRepr E' H' HT' ρ) (hv : ∀ ρ, BRepr E' HT' ρ vw' vr t' p v')
    (hw : write E H n vw t v WSt.init = .ok () ws) (rest : Str) :
    ∃ N ρ v'' rs, (∀ m, N ≤ m → read E' m vr t' p (RSt.init (ws.out ++ rest)) = .ok v'' rs) ∧ rs.inp = rest ∧
      GraphCopy H' v' rs.asHeap v'' ρ := by
  obtain ⟨n', hn'⟩ := ((C91_same_bytes E E' R H H' hH vw vw' t t' v v' h WSt.init).1 ws).1 ⟨n, hw⟩
  obtain ⟨ρ, v'', rs, h1, h2, h3⟩ := C27_read_yields_what_was_written E' H' HT' n' n' vw' vr t' p v' ws hH' hv (Nat.le_refl _) hn' rest
  exact ⟨n', ρ, v'', rs, fun m hm => read_mono hm h1 (by simp), h2, h3⟩

/-- **C91**, the limit: numbers of different sizes have different representations (unlike in JSON), so the size of a member must not be
changed. -/
theorem C91_limit_size_of_numbers (E E' : Env) (H H' : Heap) (n n' vw vw' : Nat) (it it' : IntTy) (i i' : Int) (hb : it.bytes ≠ it'.bytes)
    (s ws ws' : WSt) (hw : write E H n vw (.int it) (.int i) s = .ok () ws) (hw' : write E' H' n' vw' (.int it') (.int i') s = .ok () ws') :
    ws.out.length = s.out.length + it.bytes ∧ ws'.out.length = s.out.length + it'.bytes ∧ ws.out ≠ ws'.out := by
  have key : ∀ (E : Env) (H : Heap) (n vw : Nat) (it : IntTy) (i : Int) (ws : WSt), write E H n vw (.int it) (.int i) s = .ok () ws →
      ws.out.length = s.out.length + it.bytes := by
    intro E H n vw it i ws hw
    cases n with
    | zero => cases hw
    | succ n =>
      change writeStep E H (write E H n) vw (.int it) (.int i) s = _ at hw
      simp only [writeStep] at hw
      split at hw
      · cases hw
      · cases hw
        simp [intBytes, beBytes_length]
  refine ⟨key _ _ _ _ _ _ _ hw, key _ _ _ _ _ _ _ hw', fun he => hb ?_⟩
  have h1 := key _ _ _ _ _ _ _ hw
  have h2 := key _ _ _ _ _ _ _ hw'
  rw [he] at h1
  omega

/-! ## non-vacuity -/

namespace BinTypeChangeDemo
open Demo

def oV : Field := ⟨8, lit "value", .enum .u32⟩
def oN : Field := ⟨7, lit "successor", .sptr (.cls 7)⟩

def oldClass (bases : List ClassId) (f : Field) : ClassInfo := ⟨lit "Old", ⟨[], [], [], true, true⟩, ⟨bases, none, [(g0, f)], [(g0, f)], true⟩, [], []⟩

/-- the older program: nodes have a base class with an enumeration instead of a number; members have other names -/
def oldEnv : Env := { env with cls := fun c => match c with
    | 7 => some (oldClass [8] oN)
    | 8 => some (oldClass [] oV)
    | _ => none }

def oldNode (i : Int) (a : Nat) : Val := .obj [(oV.key, .int i), (oN.key, .ref a)]

def oldHeap : Heap := fun a => match a with
  | 1000 => some (oldNode 1 2000)
  | 2000 => some (oldNode 2 1000)
  | _ => none

def types : Nat → Option (Ty × Ty) := fun a => match a with
  | 1000 => some (.cls 7, .cls 2)
  | 2000 => some (.cls 7, .cls 2)
  | _ => none

theorem same_node (i : Int) (a : Nat) (ha : types a = some (.cls 7, .cls 2)) :
    SameBinary oldEnv env types 0 (.cls 7) (oldNode i a) 0 (.cls 2) (.obj [(fV.key, .int i), (fN.key, .ref a)]) := by
  refine .components (xs := [.object 0 oV.ty (.int i), .object 0 oN.ty (.ref a)]) (ys := [.object 0 fV.ty (.int i), .object 0 fN.ty (.ref a)])
    (.cls ?_) (.cls ?_) rfl ?_ ?_
  · have hb : ComponentsOf oldEnv 0 [(oV.key, .int i), (oN.key, .ref a)] [8] [.object 0 oV.ty (.int i)] :=
      ComponentsOf.plain (ci := oldClass [] oV) (bs := []) (xs := []) (fun _ => .int i) rfl rfl .nil
        (fun f hf => by
          have : f ∈ [oV] := hf
          rw [List.mem_singleton.1 this]; rfl) .nil
    exact ComponentsOf.plain (ci := oldClass [8] oN) (bs := [.object 0 oV.ty (.int i)]) (xs := []) (fun _ => .ref a) rfl rfl hb
      (fun f hf => by
        have : f ∈ [oN] := hf
        rw [List.mem_singleton.1 this]; rfl) .nil
  · exact ComponentsOf.plain (ci := node) (bs := []) (xs := []) (fun f => if f.name = fV.name then .int i else .ref a) rfl rfl .nil
      (fun f hf => by
        have : f ∈ [fV, fN] := hf
        simp only [List.mem_cons, List.not_mem_nil, or_false] at this
        rcases this with rfl | rfl <;> rfl) .nil
  · intro i n
    match i with
    | 0 => simp
    | 1 => simp
    | i + 2 => simp
  · intro i x u w ver' u' w' hx hy
    match i with
    | 0 => cases hx; cases hy; exact .number (.enum .u32 _ (by decide)) (.int .i32 _ (by decide))
    | 1 => cases hx; cases hy; exact .shared ha
    | i + 2 => cases hx

theorem same_heap : SameHeap oldEnv env types oldHeap cycHeap := by
  intro a t t' h
  unfold types at h
  split at h
  · cases h; exact ⟨_, _, rfl, rfl, same_node 1 2000 rfl⟩
  · cases h; exact ⟨_, _, rfl, rfl, same_node 2 1000 rfl⟩
  · cases h

/-- The cyclic list written by the older program is restored by the newer one. -/
example : ∃ ws, write oldEnv oldHeap 10 0 (.sptr (.cls 7)) (.ref 1000) WSt.init = .ok () ws ∧
    ∃ N ρ v'' rs, (∀ m, N ≤ m → read env m 0 (.sptr (.cls 2)) .null (RSt.init (ws.out ++ [9])) = .ok v'' rs) ∧ rs.inp = [9] ∧
      GraphCopy cycHeap (.ref 1000) rs.asHeap v'' ρ := by
  have h : write oldEnv oldHeap 10 0 (.sptr (.cls 7)) (.ref 1000) WSt.init =
      .ok () ⟨[1, 0x43, 0xE8, 0, 0, 0, 1, 1, 0x47, 0xD0, 0, 0, 0, 2, 2, 0x43, 0xE8], [2000, 1000]⟩ := by decide +kernel
  exact ⟨_, h, C91_restored_as_other_type oldEnv env types oldHeap cycHeap same_heap cycTypes 10 0 0 0 _ _ _ _ _ (.shared rfl) _ cycHeap_repr
    (fun ρ => .sptrSome rfl (by decide)) h _⟩

/-- a map has the same representation as a list of pairs, an optional as a unique pointer, a time as a number -/
example : SameBinary env env (fun _ => none) 0 (.map false false .str (.opt .dateTime)) (.map [(.str [65], .some (.tick 5)), (.str [66], .null)])
    0 (.vec (.pair .str (.uptr (.int .u64)))) (.list [.tup [.str [65], .ptr (.int 5)], .tup [.str [66], .null]]) := by
  refine .elements (.map ..) (.vec ..) rfl fun i x y hx hy => ?_
  match i with
  | 0 =>
    cases hx; cases hy
    refine .components (.pair ..) (.pair ..) rfl (fun i n => ?_) fun i a b c d e f hx hy => ?_
    · match i with
      | 0 => simp
      | 1 => simp
      | i + 2 => simp
    · match i with
      | 0 => cases hx; cases hy; exact .str ..
      | 1 => cases hx; cases hy; exact .owned (.opt ..) (.uptr ..) (.number (.dateTime 5) (.int .u64 5 (by decide)))
      | i + 2 => cases hx
  | 1 =>
    cases hx; cases hy
    refine .components (.pair ..) (.pair ..) rfl (fun i n => ?_) fun i a b c d e f hx hy => ?_
    · match i with
      | 0 => simp
      | 1 => simp
      | i + 2 => simp
    · match i with
      | 0 => cases hx; cases hy; exact .str ..
      | 1 => cases hx; cases hy; exact .nothing (.opt ..) (.uptr ..)
      | i + 2 => cases hx
  | i + 2 => cases hx

end BinTypeChangeDemo

end Verif
