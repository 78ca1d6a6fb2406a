import Verif.Lemmas.GenLink
import Verif.Props.GeneratorExamples

/-!
# C45, C46: generated code used by the reflectors

The environment of the reflectors uses generated code (`LinkedJson`, `LinkedBin`).
-/

namespace Verif.Gen

open Classical

/-! ## Which members are handled -/

/-- the class itself or a (direct or indirect) base, code being generated for it -/
def Handled (cfg : Config) (tu : TU) (c d : ClassId) : Prop := ∃ n ∈ wanted cfg tu, n.cls = d ∧ (d = c ∨ tu.Derived c d)

theorem Handled.base {cfg : Config} {tu : TU} {c b d : ClassId} (hb : b ∈ baseIds cfg tu c) (h : Handled cfg tu b d) : Handled cfg tu c d := by
  obtain ⟨n, hn, rfl, hd⟩ := h
  obtain ⟨_, _, _, hcb⟩ := mem_baseIds.1 hb
  rcases hd with hd | hd
  · exact ⟨n, hn, rfl, .inr (hd ▸ hcb)⟩
  · exact ⟨n, hn, rfl, .inr (Relation.TransGen.trans hcb hd)⟩

theorem handled_cases {cfg : Config} {tu : TU} {c d : ClassId} (h : Handled cfg tu c d) : d = c ∨ d ∈ baseIds cfg tu c := by
  obtain ⟨n, hn, rfl, hd | hd⟩ := h
  · exact .inl hd
  · exact .inr (mem_baseIds.2 ⟨n, hn, rfl, hd⟩)

theorem flatFields_append {E : Env} {cs cs' : List ClassId} {fs fs' : List Field} (h : FlatFields E cs fs) (h' : FlatFields E cs' fs') :
    FlatFields E (cs ++ cs') (fs ++ fs') := by
  induction h with
  | nil => exact h'
  | cons hc hb _ _ ih => rw [List.cons_append, List.append_assoc]; exact .cons hc hb ih

/-- the flattened members exist and are those of the class and its bases -/
theorem flatFields_exists {cfg : Config} {tu : TU} {E : Env} (wf : tu.WellFormed) (nm : Names tu) (hE : LinkedJson cfg tu E) :
    ∀ (N : Nat), ∀ n ∈ wanted cfg tu, n.cls < N →
      ∃ P, FlatFields E [n.cls] P ∧ ∀ f, f ∈ P ↔ ∃ d, Handled cfg tu n.cls d ∧ f ∈ pushedFields tu d := by
  intro N
  induction N with
  | zero => intro n _ h; exact absurd h (Nat.not_lt_zero _)
  | succ N ih =>
    intro n hn hlt
    obtain ⟨ci, hci, _, hl⟩ := hE n hn
    obtain ⟨e1, e2, -⟩ := linksJson_eq wf nm hn hl
    have hbs : ∀ bs : List ClassId, (∀ b ∈ bs, b ∈ baseIds cfg tu n.cls) → ∃ fs, FlatFields E bs fs ∧
        ∀ f, f ∈ fs ↔ ∃ b ∈ bs, ∃ d, Handled cfg tu b d ∧ f ∈ pushedFields tu d := by
      intro bs
      induction bs with
      | nil => intro _; exact ⟨[], .nil, by simp⟩
      | cons b bs ihb =>
        intro hb
        obtain ⟨m, hm, hmb, hd⟩ := mem_baseIds.1 (hb b (by simp))
        have := derived_lt tu wf hd
        obtain ⟨P, hP, hPm⟩ := ih m hm (by subst hmb; exact Nat.lt_of_lt_of_le this (Nat.le_of_lt_succ hlt))
        obtain ⟨fs, hfs, hfm⟩ := ihb fun x hx => hb x (by simp [hx])
        rw [hmb] at hP hPm
        refine ⟨P ++ fs, flatFields_append hP hfs, fun f => ?_⟩
        rw [List.mem_append, hPm, hfm]
        simp
    obtain ⟨bs, hbs, hbm⟩ := hbs _ fun b hb => hb
    refine ⟨bs ++ pushedFields tu n.cls ++ [], ?_, fun f => ?_⟩
    · rw [← e2]; exact .cons hci (by rw [e1]; exact hbs) .nil
    · rw [List.append_nil, List.mem_append, hbm]
      constructor
      · rintro (⟨b, hb, d, hd, hf⟩ | hf)
        · exact ⟨d, hd.base hb, hf⟩
        · exact ⟨n.cls, ⟨n, hn, rfl, .inl rfl⟩, hf⟩
      · rintro ⟨d, hd, hf⟩
        rcases handled_cases hd with rfl | hb
        · exact .inr hf
        · obtain ⟨m, hm, hmd, _⟩ := hd
          exact .inl ⟨d, hb, d, ⟨m, hm, hmd, .inl rfl⟩, hf⟩

theorem flatPull_append {E : Env} {cs cs' : List ClassId} {fs fs' : List Field} (h : FlatPull E cs fs) (h' : FlatPull E cs' fs') :
    FlatPull E (cs ++ cs') (fs ++ fs') := by
  induction h with
  | nil => exact h'
  | cons hc hp hb _ _ ih => rw [List.cons_append, List.append_assoc]; exact .cons hc hp hb ih

theorem flatPull_exists {cfg : Config} {tu : TU} {E : Env} (wf : tu.WellFormed) (nm : Names tu) (hE : LinkedJson cfg tu E)
    (ctor : ∀ n ∈ wanted cfg tu, (tu.cls n.cls).hasDefaultCtor = true) :
    ∀ (N : Nat), ∀ n ∈ wanted cfg tu, n.cls < N →
      ∃ P, FlatPull E [n.cls] P ∧ ∀ f, f ∈ P ↔ ∃ d, Handled cfg tu n.cls d ∧ f ∈ pulledFields tu d := by
  intro N
  induction N with
  | zero => intro n _ h; exact absurd h (Nat.not_lt_zero _)
  | succ N ih =>
    intro n hn hlt
    obtain ⟨ci, hci, _, hl⟩ := hE n hn
    obtain ⟨e1, -, e3, e4⟩ := linksJson_eq wf nm hn hl
    have hp : ci.json.pullable = true := e3.trans (ctor n hn)
    have e2 := e4 hp
    have hbs : ∀ bs : List ClassId, (∀ b ∈ bs, b ∈ baseIds cfg tu n.cls) → ∃ fs, FlatPull E bs fs ∧
        ∀ f, f ∈ fs ↔ ∃ b ∈ bs, ∃ d, Handled cfg tu b d ∧ f ∈ pulledFields tu d := by
      intro bs
      induction bs with
      | nil => intro _; exact ⟨[], .nil, by simp⟩
      | cons b bs ihb =>
        intro hb
        obtain ⟨m, hm, hmb, hd⟩ := mem_baseIds.1 (hb b (by simp))
        have := derived_lt tu wf hd
        obtain ⟨P, hP, hPm⟩ := ih m hm (by subst hmb; exact Nat.lt_of_lt_of_le this (Nat.le_of_lt_succ hlt))
        obtain ⟨fs, hfs, hfm⟩ := ihb fun x hx => hb x (by simp [hx])
        rw [hmb] at hP hPm
        refine ⟨P ++ fs, flatPull_append hP hfs, fun f => ?_⟩
        rw [List.mem_append, hPm, hfm]
        simp
    obtain ⟨bs, hbs, hbm⟩ := hbs _ fun b hb => hb
    refine ⟨bs ++ pulledFields tu n.cls ++ [], ?_, fun f => ?_⟩
    · rw [← e2]; exact .cons hci hp (by rw [e1]; exact hbs) .nil
    · rw [List.append_nil, List.mem_append, hbm]
      constructor
      · rintro (⟨b, hb, d, hd, hf⟩ | hf)
        · exact ⟨d, hd.base hb, hf⟩
        · exact ⟨n.cls, ⟨n, hn, rfl, .inl rfl⟩, hf⟩
      · rintro ⟨d, hd, hf⟩
        rcases handled_cases hd with rfl | hb
        · exact .inr hf
        · obtain ⟨m, hm, hmd, _⟩ := hd
          exact .inl ⟨d, hb, d, ⟨m, hm, hmd, .inl rfl⟩, hf⟩

/-- C46 (JSON): with generated code, the members written for an object are exactly the public ones (all if `push` is
befriended) of its class and of the bases code is generated for; the members read are the non-const ones (public or `pull` is
befriended); so everything read has been written provided no class befriends only `pull`. (These are the conditions on code
used by the round trip theorem C01.) -/
theorem C46_json_members_handled (cfg : Config) (tu : TU) (E : Env) (wf : tu.WellFormed) (nm : Names tu) (hE : LinkedJson cfg tu E)
    (ctor : ∀ n ∈ wanted cfg tu, (tu.cls n.cls).hasDefaultCtor = true)
    (friends : ∀ n ∈ wanted cfg tu, Befriends (tu.cls n.cls) (lit "ReflectiveRapidJSON::JsonReflector::pull") →
      Befriends (tu.cls n.cls) (lit "ReflectiveRapidJSON::JsonReflector::push")) (n : Node) (hn : n ∈ wanted cfg tu) :
    ∃ P Q, FlatFields E [n.cls] P ∧ FlatPull E [n.cls] Q ∧ (∀ f ∈ Q, f ∈ P) ∧
      (∀ f, f ∈ P ↔ ∃ d, Handled cfg tu n.cls d ∧ ∃ fd ∈ (tu.cls d).fields, f = fieldOf d fd ∧
        (Befriends (tu.cls d) (lit "ReflectiveRapidJSON::JsonReflector::push") ∨ fd.isPublic = true)) ∧
      (∀ f, f ∈ Q ↔ ∃ d, Handled cfg tu n.cls d ∧ ∃ fd ∈ (tu.cls d).fields, f = fieldOf d fd ∧ fd.isConst = false ∧
        (Befriends (tu.cls d) (lit "ReflectiveRapidJSON::JsonReflector::pull") ∨ fd.isPublic = true)) := by
  obtain ⟨P, hP, hPm⟩ := flatFields_exists wf nm hE (n.cls + 1) n hn (Nat.lt_succ_self _)
  obtain ⟨Q, hQ, hQm⟩ := flatPull_exists wf nm hE ctor (n.cls + 1) n hn (Nat.lt_succ_self _)
  have hp : ∀ f d, f ∈ pushedFields tu d ↔ ∃ fd ∈ (tu.cls d).fields, f = fieldOf d fd ∧
        (Befriends (tu.cls d) (lit "ReflectiveRapidJSON::JsonReflector::push") ∨ fd.isPublic = true) := by
    intro f d
    unfold pushedFields
    rw [mem_fieldsWith]
    constructor
    · rintro ⟨fd, h1, h2, h3⟩; exact ⟨fd, h1, h3, h2⟩
    · rintro ⟨fd, h1, h2, h3⟩; exact ⟨fd, h1, h3, h2⟩
  have hq : ∀ f d, f ∈ pulledFields tu d ↔ ∃ fd ∈ (tu.cls d).fields, f = fieldOf d fd ∧ fd.isConst = false ∧
        (Befriends (tu.cls d) (lit "ReflectiveRapidJSON::JsonReflector::pull") ∨ fd.isPublic = true) := by
    intro f d
    unfold pulledFields
    rw [mem_fieldsWith]
    constructor
    · rintro ⟨fd, h1, h2, h3⟩; exact ⟨fd, h1, h3, h2⟩
    · rintro ⟨fd, h1, h2, h3⟩; exact ⟨fd, h1, h3, h2⟩
  refine ⟨P, Q, hP, hQ, fun f hf => ?_, fun f => ?_, fun f => ?_⟩
  · obtain ⟨d, hd, hf⟩ := (hQm f).1 hf
    obtain ⟨fd, h1, h2, _, h3⟩ := (hq f d).1 hf
    refine (hPm f).2 ⟨d, hd, (hp f d).2 ⟨fd, h1, h2, h3.imp_left fun h => ?_⟩⟩
    obtain ⟨m, hm, rfl, _⟩ := hd
    exact friends m hm h
  · rw [hPm]; simp only [hp]
  · rw [hQm]; simp only [hq]

/-! ### Binary -/

theorem flatBin_append {E : Env} {vw vr : Nat} {cs cs' : List ClassId} {fs fs' : List (Nat × Nat × Field)} (h : FlatBin E vw vr cs fs)
    (h' : FlatBin E vw vr cs' fs') : FlatBin E vw vr (cs ++ cs') (fs ++ fs') := by
  induction h with
  | nil => exact h'
  | plain hc hr hv hb ha _ _ ih => rw [List.cons_append, List.append_assoc]; exact .plain hc hr hv hb ha ih
  | versioned eff hc hr hv he hle hb ha _ _ ih =>
    rw [List.cons_append, List.append_assoc]; exact .versioned eff hc hr hv he hle hb ha ih

/-- version of the class when no version is given: the version of the class if it has one -/
def ownVersion (ci : ClassInfo) : Nat := ci.bin.version.getD 0

theorem flatBin_exists {cfg : Config} {tu : TU} {E : Env} (wf : tu.WellFormed) (nm : Names tu) (hE : LinkedBin cfg tu E)
    (ctor : ∀ n ∈ wanted cfg tu, (tu.cls n.cls).hasDefaultCtor = true)
    (friends : ∀ n ∈ wanted cfg tu, Befriends (tu.cls n.cls) (lit "ReflectiveRapidJSON::BinaryReflector::writeCustomType")
      ↔ Befriends (tu.cls n.cls) (lit "ReflectiveRapidJSON::BinaryReflector::readCustomType")) :
    ∀ (N : Nat), ∀ n ∈ wanted cfg tu, n.cls < N → ∃ Q, FlatBin E 0 0 [n.cls] Q ∧
      ∀ f, (∃ vw vr, (vw, vr, f) ∈ Q) ↔ ∃ d, Handled cfg tu n.cls d ∧ IsMember tu d f ∧
        ∃ ci, E.cls d = some ci ∧ f.name ∈ binNames tu d (ownVersion ci) := by
  intro N
  induction N with
  | zero => intro n _ h; exact absurd h (Nat.not_lt_zero _)
  | succ N ih =>
    intro n hn hlt
    obtain ⟨ci, hci, _, hl⟩ := hE n hn
    obtain ⟨e1, e3, e4, e5⟩ := linksBin_eq wf nm hn (friends n hn) hl
    have hp : ci.bin.readable = true := e3.trans (ctor n hn)
    have e2 := e5 hp
    have hbs : ∀ bs : List ClassId, (∀ b ∈ bs, b ∈ baseIds cfg tu n.cls) → ∃ fs, FlatBin E 0 0 bs fs ∧
        ∀ f, (∃ vw vr, (vw, vr, f) ∈ fs) ↔ ∃ b ∈ bs, ∃ d, Handled cfg tu b d ∧ IsMember tu d f ∧
          ∃ ci, E.cls d = some ci ∧ f.name ∈ binNames tu d (ownVersion ci) := by
      intro bs
      induction bs with
      | nil => intro _; exact ⟨[], .nil 0 0, by simp⟩
      | cons b bs ihb =>
        intro hb
        obtain ⟨m, hm, hmb, hd⟩ := mem_baseIds.1 (hb b (by simp))
        have := derived_lt tu wf hd
        obtain ⟨P, hP, hPm⟩ := ih m hm (by subst hmb; exact Nat.lt_of_lt_of_le this (Nat.le_of_lt_succ hlt))
        obtain ⟨fs, hfs, hfm⟩ := ihb fun x hx => hb x (by simp [hx])
        rw [hmb] at hP hPm
        refine ⟨P ++ fs, flatBin_append hP hfs, fun f => ?_⟩
        constructor
        · rintro ⟨vw, vr, h⟩
          rcases List.mem_append.1 h with h | h
          · exact ⟨b, by simp, (hPm f).1 ⟨vw, vr, h⟩⟩
          · obtain ⟨b', hb', h⟩ := (hfm f).1 ⟨vw, vr, h⟩
            exact ⟨b', by simp [hb'], h⟩
        · rintro ⟨b', hb', h⟩
          rcases List.mem_cons.1 hb' with rfl | hb'
          · obtain ⟨vw, vr, h⟩ := (hPm f).2 h
            exact ⟨vw, vr, by simp [h]⟩
          · obtain ⟨vw, vr, h⟩ := (hfm f).2 ⟨b', hb', h⟩
            exact ⟨vw, vr, by simp [h]⟩
    obtain ⟨bs, hbs, hbm⟩ := hbs _ fun b hb => hb
    have hown : ∀ f, f ∈ activeFields (ownVersion ci) ci.bin.readFields ↔
        IsMember tu n.cls f ∧ f.name ∈ binNames tu n.cls (ownVersion ci) := by
      intro f
      rw [e2, ← e4]
      constructor
      · intro h
        exact ⟨active_member hl.writeMembers _ f h, List.mem_map.2 ⟨f, h, rfl⟩⟩
      · rintro ⟨h1, h2⟩
        obtain ⟨g, hg, hgn⟩ := List.mem_map.1 h2
        rwa [field_inj nm h1 (active_member hl.writeMembers _ g hg) hgn.symm]
    have hmem : ∀ f, ((∃ vw vr, (vw, vr, f) ∈ bs) ∨ f ∈ activeFields (ownVersion ci) ci.bin.readFields) ↔
        ∃ d, Handled cfg tu n.cls d ∧ IsMember tu d f ∧ ∃ ci, E.cls d = some ci ∧ f.name ∈ binNames tu d (ownVersion ci) := by
      intro f
      rw [hbm, hown]
      constructor
      · rintro (⟨b, hb, d, hd, hf⟩ | ⟨hf, hf'⟩)
        · exact ⟨d, hd.base hb, hf⟩
        · exact ⟨n.cls, ⟨n, hn, rfl, .inl rfl⟩, hf, ci, hci, hf'⟩
      · rintro ⟨d, hd, hf, ci', hci', hf'⟩
        rcases handled_cases hd with rfl | hb
        · rw [hci] at hci'; cases hci'
          exact .inr ⟨hf, hf'⟩
        · obtain ⟨m, hm, hmd, _⟩ := hd
          exact .inl ⟨d, hb, d, ⟨m, hm, hmd, .inl rfl⟩, hf, ci', hci', hf'⟩
    have hshape : ∀ (v : Nat) f, (∃ vw vr, (vw, vr, f) ∈ bs ++ (activeFields (ownVersion ci) ci.bin.readFields).map (fun f => (v, v, f)) ++ [])
        ↔ (∃ vw vr, (vw, vr, f) ∈ bs) ∨ f ∈ activeFields (ownVersion ci) ci.bin.readFields := by
      intro v f
      simp only [List.append_nil, List.mem_append, List.mem_map, Prod.mk.injEq]
      constructor
      · rintro ⟨vw, vr, h | ⟨g, hg, _, _, rfl⟩⟩
        · exact .inl ⟨vw, vr, h⟩
        · exact .inr hg
      · rintro (⟨vw, vr, h⟩ | h)
        · exact ⟨vw, vr, .inl h⟩
        · exact ⟨v, v, .inr ⟨f, h, rfl, rfl, rfl⟩⟩
    cases hv : ci.bin.version with
    | none =>
      have ho : ownVersion ci = 0 := by simp [ownVersion, hv]
      refine ⟨_, .plain hci hp hv (by rw [e1]; exact hbs) (e2 0).symm (.nil 0 0), fun f => ?_⟩
      rw [← hmem, ← hshape 0]
      simp only [ho]
    | some d =>
      have ho : ownVersion ci = d := by simp [ownVersion, hv]
      refine ⟨_, .versioned d hci hp hv (by simp) (Nat.le_refl _) (by rw [e1]; exact hbs) (e2 d).symm (.nil 0 0), fun f => ?_⟩
      rw [← hmem, ← hshape d]
      simp only [ho]

/-- C46/C47 (binary): with generated code, reader and writer handle the same members - the non-const ones of its class and of
the bases code is generated for which are accessible and belong to the class' version - provided both functions are befriended
or none. (This is the condition on code used by the round trip theorem C27.) -/
theorem C46_binary_members_handled (cfg : Config) (tu : TU) (E : Env) (wf : tu.WellFormed) (nm : Names tu) (hE : LinkedBin cfg tu E)
    (ctor : ∀ n ∈ wanted cfg tu, (tu.cls n.cls).hasDefaultCtor = true)
    (friends : ∀ n ∈ wanted cfg tu, Befriends (tu.cls n.cls) (lit "ReflectiveRapidJSON::BinaryReflector::writeCustomType")
      ↔ Befriends (tu.cls n.cls) (lit "ReflectiveRapidJSON::BinaryReflector::readCustomType"))
    (n : Node) (hn : n ∈ wanted cfg tu) : ∃ Q, FlatBin E 0 0 [n.cls] Q ∧
      ∀ f, (∃ vw vr, (vw, vr, f) ∈ Q) ↔ ∃ d, Handled cfg tu n.cls d ∧ IsMember tu d f ∧ ∃ ci, E.cls d = some ci ∧
        f.name ∈ membersWith (tu.cls d) fun before m => m.isConst = false ∧
          (Befriends (tu.cls d) (lit "ReflectiveRapidJSON::BinaryReflector::readCustomType") ∨ m.isPublic = true) ∧
          InVersion (markers before) (ci.bin.version.getD 0) :=
  flatBin_exists wf nm hE ctor friends (n.cls + 1) n hn (Nat.lt_succ_self _)

/-! ## C45 -/

theorem flatFields_det {E : Env} {cs : List ClassId} {P P' : List Field} (h : FlatFields E cs P) (h' : FlatFields E cs P') : P = P' := by
  induction h generalizing P' with
  | nil => cases h'; rfl
  | cons hc _ _ ih1 ih2 =>
    cases h' with
    | cons hc' hb' hr' =>
      rw [hc] at hc'; cases hc'
      rw [ih1 hb', ih2 hr']

/-- in a linear chain the root's members occur `1, 1, 2, 4, 8, …` times -/
def occurrences : Nat → Nat
  | 0 => 1
  | n + 1 => 2 ^ n

theorem sum_occurrences (k : Nat) : ((List.range (k + 1)).map occurrences).sum = occurrences (k + 1) := by
  induction k with
  | zero => rfl
  | succ k ih =>
    rw [List.range_succ, List.map_append, List.sum_append, ih]
    simp only [List.map_cons, List.map_nil, List.sum_cons, List.sum_nil, occurrences, Nat.pow_succ]
    omega

theorem flatFields_count {E : Env} (f : Field) (g : ClassId → Nat) {cs : List ClassId} {P : List Field} (h : FlatFields E cs P)
    (hg : ∀ c ∈ cs, ∀ P, FlatFields E [c] P → P.count f = g c) : P.count f = (cs.map g).sum := by
  induction cs generalizing P with
  | nil => cases h; rfl
  | cons c cs ih =>
    cases h with
    | cons hc hb hr =>
      rw [List.count_append, ih hr fun d hd => hg d (by simp [hd])]
      have := hg c (by simp) _ (.cons hc hb .nil)
      rw [List.append_nil] at this
      rw [this]; simp

/-- classes `chain 0`, …, `chain n` form a linear chain: code is generated for all of them and the bases of a class (among
the classes code is generated for) are the preceding ones -/
structure Chain (cfg : Config) (tu : TU) (chain : Nat → Node) (n : Nat) : Prop where
  wanted : ∀ i ≤ n, chain i ∈ wanted cfg tu
  bases : ∀ i ≤ n, ∀ m ∈ Gen.wanted cfg tu, tu.Derived (chain i).cls m.cls ↔ ∃ j < i, m = chain j

theorem Chain.baseIds_perm {cfg : Config} {tu : TU} {chain : Nat → Node} {n : Nat} (wf : tu.WellFormed) (h : Chain cfg tu chain n)
    (i : Nat) (hi : i ≤ n) : (baseIds cfg tu (chain i).cls).Perm ((List.range i).map fun j => (chain j).cls) := by
  refine (List.perm_ext_iff_of_nodup (baseIds_nodup cfg tu wf _) ?_).2 fun c => ?_
  · rw [List.Nodup, List.pairwise_map]
    have := @List.pairwise_lt_range i
    refine List.Pairwise.imp_of_mem (fun {a b} ha hb hab he => ?_) this
    have hb' := List.mem_range.1 hb
    have hd := (h.bases b (by omega) _ (h.wanted a (by omega))).2 ⟨a, hab, rfl⟩
    have := derived_lt tu wf hd
    rw [he] at this
    exact absurd this (Nat.lt_irrefl _)
  · rw [mem_baseIds]
    simp only [List.mem_map, List.mem_range]
    constructor
    · rintro ⟨m, hm, rfl, hd⟩
      obtain ⟨j, hj, rfl⟩ := (h.bases i hi m hm).1 hd
      exact ⟨j, hj, rfl⟩
    · rintro ⟨j, hj, rfl⟩
      have hw := h.wanted j (by omega)
      exact ⟨chain j, hw, rfl, (h.bases i hi _ hw).2 ⟨j, hj, rfl⟩⟩

theorem chain_count {cfg : Config} {tu : TU} {E : Env} {chain : Nat → Node} {n : Nat} (wf : tu.WellFormed) (nm : Names tu)
    (hE : LinkedJson cfg tu E) (h : Chain cfg tu chain n) (f : Field) (hf : f ∈ pushedFields tu (chain 0).cls) :
    ∀ i ≤ n, ∀ P, FlatFields E [(chain i).cls] P → P.count f = occurrences i := by
  intro i
  induction i using Nat.strongRecOn with
  | ind i ih =>
    intro hi P hP
    obtain ⟨ci, hci, _, hl⟩ := hE _ (h.wanted i hi)
    obtain ⟨e1, e2, -⟩ := linksJson_eq wf nm (h.wanted i hi) hl
    cases hP with
    | @cons _ ci' _ bs fs hc hb hr =>
      rw [hci] at hc; cases hc
      cases hr
      rw [e1] at hb
      rw [e2, List.append_nil, List.count_append]
      have ho : f.owner = (chain 0).cls := by
        obtain ⟨fd, _, _, rfl⟩ := mem_fieldsWith.1 hf
        rfl
      cases i with
      | zero =>
        have : baseIds cfg tu (chain 0).cls = [] := (h.baseIds_perm wf 0 (by omega)).eq_nil
        rw [this] at hb; cases hb
        have hnd : (pushedFields tu (chain 0).cls).Nodup := by
          unfold pushedFields fieldsWith
          refine List.Nodup.map_on (fun a ha b hb he => ?_) ?_
          · exact List.inj_on_of_nodup_map (nm.members (chain 0).cls) (List.mem_filter.1 ha).1 (List.mem_filter.1 hb).1
              (by simpa [fieldOf] using congrArg Field.name he)
          · exact List.Nodup.filter _ (List.Nodup.of_map _ (nm.members (chain 0).cls))
        rw [List.count_eq_one_of_mem hnd hf]; rfl
      | succ i =>
        have hd := (h.bases (i + 1) hi _ (h.wanted 0 (by omega))).2 ⟨0, by omega, rfl⟩
        have hlt := derived_lt tu wf hd
        have hno : (pushedFields tu (chain (i + 1)).cls).count f = 0 := by
          refine List.count_eq_zero.2 fun hm => ?_
          obtain ⟨fd, _, _, hfd⟩ := mem_fieldsWith.1 hm
          rw [hfd] at ho
          simp only [fieldOf] at ho
          rw [ho] at hlt
          exact absurd hlt (Nat.lt_irrefl _)
        rw [hno, Nat.add_zero]
        have hperm := h.baseIds_perm wf (i + 1) hi
        -- value of a class of the chain
        have hg : ∃ g : ClassId → Nat, ∀ j ≤ i, g (chain j).cls = occurrences j := by
          refine ⟨fun c => if hx : ∃ j, j ≤ i ∧ (chain j).cls = c then occurrences (Classical.choose hx) else 0, fun j hj => ?_⟩
          have hx : ∃ j', j' ≤ i ∧ (chain j').cls = (chain j).cls := ⟨j, hj, rfl⟩
          simp only []
          rw [dif_pos hx]
          obtain ⟨h1, h2⟩ := Classical.choose_spec hx
          generalize Classical.choose hx = k at h1 h2
          congr 1
          rcases Nat.lt_trichotomy k j with hkj | hkj | hkj
          · have := derived_lt tu wf ((h.bases j (by omega) _ (h.wanted k (by omega))).2 ⟨k, hkj, rfl⟩); rw [h2] at this; exact absurd this (Nat.lt_irrefl _)
          · exact hkj
          · have := derived_lt tu wf ((h.bases k (by omega) _ (h.wanted j (by omega))).2 ⟨j, hkj, rfl⟩); rw [h2] at this; exact absurd this (Nat.lt_irrefl _)
        obtain ⟨g, hg⟩ := hg
        rw [flatFields_count f g hb]
        · rw [(hperm.map g).sum_nat, List.map_map, ← sum_occurrences]
          congr 1
          refine List.map_congr_left fun j hj => ?_
          have := List.mem_range.1 hj
          exact hg j (by omega)
        · intro c hc P hP
          obtain ⟨j, hj, rfl⟩ := List.mem_map.1 (hperm.mem_iff.1 hc)
          have := List.mem_range.1 hj
          rw [ih j (by omega) (by omega) P hP, hg j (by omega)]

theorem forall₂_filter_length {R : Field → Key × Json → Prop} {fs : List Field} {ms : List (Key × Json)} (h : List.Forall₂ R fs ms)
    (hR : ∀ f m, R f m → m.1.bytes = f.name) (q : Str) :
    (ms.filter fun m => decide (m.1.bytes = q)).length = (fs.filter fun f => decide (f.name = q)).length := by
  induction h with
  | nil => rfl
  | cons ha _ ih =>
    rw [List.filter_cons, List.filter_cons, hR _ _ ha]
    split <;> simp [ih]

/-- C45: when serializing an object of the most derived class of a linear chain of `n + 1` classes, each of the root's (public)
members occurs `2 ^ (n - 1)` times in the JSON object (once if `n = 0`), provided no other class of the chain has a member of
the same name. -/
theorem C45_members_of_root_repeated (cfg : Config) (tu : TU) (E : Env) (wf : tu.WellFormed) (nm : Names tu)
    (hE : LinkedJson cfg tu E) (chain : Nat → Node) (n : Nat) (h : Chain cfg tu chain n)
    (fd : FieldD) (hf : fd ∈ (tu.cls (chain 0).cls).fields) (hp : fd.isPublic = true)
    (hu : ∀ i, 0 < i → i ≤ n → ∀ g ∈ (tu.cls (chain i).cls).fields, g.name ≠ fd.name)
    (H : Heap) (fuel : Nat) (st : Store) (j : Json) (hpush : push E H fuel (.cls (chain n).cls) (.obj st) () = .ok j ()) :
    ∃ ms, j = .obj ms ∧ (ms.filter fun m => decide (m.1.bytes = fd.name)).length = if n = 0 then 1 else 2 ^ (n - 1) := by
  obtain ⟨fs, ms, h1, h2, h3⟩ := C53_member_order E H fuel _ st j hpush
  refine ⟨ms, h2, ?_⟩
  have hfm : fieldOf (chain 0).cls fd ∈ pushedFields tu (chain 0).cls := mem_fieldsWith.2 ⟨fd, hf, .inr hp, rfl⟩
  have hcount := chain_count wf nm hE h _ hfm n (Nat.le_refl _) fs h1
  rw [forall₂_filter_length h3 (fun _ _ h => h.1)]
  obtain ⟨P, hP, hPm⟩ := flatFields_exists wf nm hE _ (chain n) (h.wanted n (Nat.le_refl _)) (Nat.lt_succ_self _)
  obtain rfl := flatFields_det hP h1
  have : (P.filter fun f => decide (f.name = fd.name)).length = P.count (fieldOf (chain 0).cls fd) := by
    rw [List.count_eq_countP, List.countP_eq_length_filter]
    congr 1
    refine List.filter_congr fun f hfP => ?_
    rw [Bool.eq_iff_iff, decide_eq_true_eq, beq_iff_eq]
    constructor
    · intro he
      obtain ⟨d, hd, hfd⟩ := (hPm f).1 hfP
      obtain ⟨m, hm, rfl, hd⟩ := hd
      have : ∃ i ≤ n, m.cls = (chain i).cls := by
        rcases hd with hd | hd
        · exact ⟨n, Nat.le_refl _, hd⟩
        · obtain ⟨i, hi, rfl⟩ := (h.bases n (Nat.le_refl _) m hm).1 hd
          exact ⟨i, by omega, rfl⟩
      obtain ⟨i, hi, hmi⟩ := this
      rw [hmi] at hfd
      obtain ⟨g, hg, _, rfl⟩ := mem_fieldsWith.1 hfd
      by_cases hi0 : i = 0
      · subst hi0
        exact field_inj nm ⟨g, hg, rfl⟩ ⟨fd, hf, rfl⟩ he
      · exact absurd he (hu i (by omega) hi g hg)
    · rintro rfl; rfl
  rw [this, hcount]
  cases n <;> rfl

/-- C45: so a member of the root occurs once iff the chain consists of at most two classes. -/
theorem C45_once_iff (n : Nat) : (if n = 0 then 1 else 2 ^ (n - 1)) = 1 ↔ n ≤ 1 := by
  by_cases h : n = 0
  · simp [h]
  · rw [if_neg h]
    constructor
    · intro h'
      by_cases h1 : n ≤ 1
      · exact h1
      · have : 2 ^ 1 ≤ 2 ^ (n - 1) := Nat.pow_le_pow_right (by omega) (by omega)
        omega
    · intro h'
      have : n = 1 := by omega
      subst this; rfl

end Verif.Gen
