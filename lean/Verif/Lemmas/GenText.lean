import Verif.Lemmas.GenBinaryFns

/-!
# Code generator: braces in the generated text
-/

namespace Verif.Gen

set_option maxRecDepth 100000

theorem braces_append (a b : Str) : ∀ d, braces d (a ++ b) = (braces d a).bind fun e => braces e b := by
  induction a with
  | nil => intro d; rfl
  | cons c a ih =>
    intro d
    rw [List.cons_append, braces, braces]
    by_cases h1 : c = 123
    · rw [if_pos h1, if_pos h1, ih]
    · rw [if_neg h1, if_neg h1]
      by_cases h2 : c = 125
      · rw [if_pos h2, if_pos h2]
        by_cases h0 : d = 0
        · rw [if_pos h0, if_pos h0]; rfl
        · rw [if_neg h0, if_neg h0, ih]
      · rw [if_neg h2, if_neg h2, ih]

theorem braces_shift (s : Str) : ∀ {e k} (d : Nat), braces e s = some k → braces (d + e) s = some (d + k) := by
  induction s with
  | nil => intro e k d h; simp [braces] at h ⊢; omega
  | cons c s ih =>
    intro e k d h
    rw [braces] at h ⊢
    by_cases h1 : c = 123
    · rw [if_pos h1] at h ⊢; exact ih d h
    · rw [if_neg h1] at h ⊢
      by_cases h2 : c = 125
      · rw [if_pos h2] at h ⊢
        by_cases h0 : e = 0
        · rw [if_pos h0] at h; cases h
        · rw [if_neg h0] at h
          rw [if_neg (by omega), show d + e - 1 = d + (e - 1) by omega]
          exact ih d h
      · rw [if_neg h2] at h ⊢; exact ih d h

theorem braces_none {s : Str} (h : NoBraces s) (d : Nat) : braces d s = some d := by
  induction s with
  | nil => rfl
  | cons c s ih =>
    rw [braces, if_neg (h c (by simp)).1, if_neg (h c (by simp)).2]
    exact ih fun x hx => h x (by simp [hx])

/-- a text changing the depth from `e` to `k` (relative) -/
def Lvl (e k : Nat) (s : Str) : Prop := ∀ d, braces (d + e) s = some (d + k)

theorem Lvl.of {e k s} (h : braces e s = some k) : Lvl e k s := fun d => braces_shift s d h

theorem Lvl.app {a b c s t} (h : Lvl a b s) (h' : Lvl b c t) : Lvl a c (s ++ t) := by
  intro d; rw [braces_append, h d]; exact h' d

theorem Lvl.name {s} (h : NoBraces s) (e : Nat) : Lvl e e s := fun _ => braces_none h _

theorem Lvl.up {e k s} (h : Lvl e k s) (j : Nat) : Lvl (j + e) (j + k) s := by
  intro d; have := h (d + j); rw [Nat.add_assoc, Nat.add_assoc] at this; exact this

theorem Lvl.flat {is : List Item} (h : ∀ i ∈ is, Lvl 0 0 i.render) : Lvl 0 0 (renderAll is) := by
  induction is with
  | nil => exact .of rfl
  | cons i is ih => exact (h i (by simp)).app (ih fun j hj => h j (by simp [hj]))

theorem lit_noBraces {s : String} (h : ∀ c ∈ s.toList, c.isDigit = true) : NoBraces (lit s) := by
  intro b hb
  obtain ⟨c, hc, rfl⟩ := List.mem_map.1 hb
  have := h c hc
  simp only [Char.isDigit, Bool.and_eq_true, decide_eq_true_eq, ge_iff_le] at this
  obtain ⟨h1, h2⟩ := this
  have h1' : 48 ≤ c.toNat := by simpa [UInt32.le_iff_toNat_le] using h1
  have h2' : c.toNat ≤ 57 := by simpa [UInt32.le_iff_toNat_le] using h2
  constructor
  · intro h
    have := congrArg UInt8.toNat h
    simp only [UInt8.toNat_ofNat'] at this
    rw [Nat.mod_eq_of_lt (by omega)] at this
    have h3 : (123 : UInt8).toNat = 123 := rfl
    omega
  · intro h
    have := congrArg UInt8.toNat h
    simp only [UInt8.toNat_ofNat'] at this
    rw [Nat.mod_eq_of_lt (by omega)] at this
    have h3 : (125 : UInt8).toNat = 125 := rfl
    omega

theorem natText_noBraces (n : Nat) : NoBraces (natText n) := by
  apply lit_noBraces
  intro c hc
  have : c ∈ Nat.toDigits 10 n := by simpa [toString, Nat.repr] using hc
  exact Nat.isDigit_of_mem_toDigits (by decide) (by decide) this

theorem NoBraces.append {s t} (h : NoBraces s) (h' : NoBraces t) : NoBraces (s ++ t) := by
  intro c hc; rcases List.mem_append.1 hc with hc | hc
  · exact h c hc
  · exact h' c hc

theorem conditionText_noBraces (a u : Nat) : NoBraces (conditionText a u) := by
  have l1 : NoBraces (lit "version >= ") := by decide
  have l2 : NoBraces (lit " && ") := by decide
  have l3 : NoBraces (lit "version <= ") := by decide
  have l0 : NoBraces [] := by decide
  unfold conditionText
  split <;> split
  · exact ((l1.append (natText_noBraces a)).append l2).append (l3.append (natText_noBraces u))
  · exact ((l1.append (natText_noBraces a)).append l0).append l0
  · exact l0.append (l3.append (natText_noBraces u))
  · exact l0

/-- the names occurring in a piece do not contain braces -/
def Item.NamesOk : Item → Prop
  | .nsOpen ns | .nsClose ns => NoBraces ns
  | .classComment q | .pushBase q | .pullBase q | .pullSetRecord q | .writeBase q | .readBase q | .writeVersion q => NoBraces q
  | .pushMember n | .pullMember n | .writeMember n | .readMember n => NoBraces n
  | .pushOpen v q | .pullOpen v q | .writeOpen v q | .readOpen v q | .readVersion v q => NoBraces v ∧ NoBraces q
  | _ => True

/-- change of the nesting depth by a piece -/
def Item.enter : Item → Nat
  | .nsClose _ => 2
  | .funEnd | .funEndBlank | .endIf => 1
  | _ => 0
def Item.leave : Item → Nat
  | .nsOpen _ => 2
  | .pushOpen _ _ | .pullOpen _ _ | .writeOpen _ _ | .readOpen _ _ | .ifVersion _ _ => 1
  | _ => 0

local macro "lv" : tactic => `(tactic| ((try simp only [Item.enter, Item.leave]); decide +kernel))

theorem render_lvl (i : Item) (h : i.NamesOk) : Lvl i.enter i.leave i.render := by
  cases i with
  | nsOpen ns => exact ((Lvl.of (k := 1) (by lv)).app (.name h 1)).app (.of (by lv))
  | nsClose ns => exact ((Lvl.of (k := 1) (by lv)).app (.name h 1)).app (.of (by lv))
  | classComment q => exact ((Lvl.of (k := 0) (by lv)).app (.name h 0)).app (.of (by lv))
  | pushOpen v q =>
    exact ((((((Lvl.of (k := 0) (by lv)).app (.name h.1 0)).app (.of (k := 0) (by lv))).app (.name h.2 0)).app (.of (k := 0) (by lv))).app (.name h.2 0)).app (.of (by lv))
  | pullOpen v q =>
    exact ((((((Lvl.of (k := 0) (by lv)).app (.name h.1 0)).app (.of (k := 0) (by lv))).app (.name h.2 0)).app (.of (k := 0) (by lv))).app (.name h.2 0)).app (.of (by lv))
  | writeOpen v q =>
    exact ((((((Lvl.of (k := 0) (by lv)).app (.name h.1 0)).app (.of (k := 0) (by lv))).app (.name h.2 0)).app (.of (k := 0) (by lv))).app (.name h.2 0)).app (.of (by lv))
  | readOpen v q =>
    exact ((((((Lvl.of (k := 0) (by lv)).app (.name h.1 0)).app (.of (k := 0) (by lv))).app (.name h.2 0)).app (.of (k := 0) (by lv))).app (.name h.2 0)).app (.of (by lv))
  | pushBase q => exact ((Lvl.of (k := 0) (by lv)).app (.name h 0)).app (.of (by lv))
  | pullBase q => exact ((Lvl.of (k := 0) (by lv)).app (.name h 0)).app (.of (by lv))
  | writeBase q => exact ((Lvl.of (k := 0) (by lv)).app (.name h 0)).app (.of (by lv))
  | readBase q => exact ((Lvl.of (k := 0) (by lv)).app (.name h 0)).app (.of (by lv))
  | pullSetRecord q => exact ((Lvl.of (k := 1) (by lv)).app (.name h 1)).app (.of (by lv))
  | writeVersion q => exact ((Lvl.of (k := 0) (by lv)).app (.name h 0)).app (.of (by lv))
  | readVersion t q => exact ((((Lvl.of (k := 0) (by lv)).app (.name h.1 0)).app (.of (k := 1) (by lv))).app (.name h.2 1)).app (.of (by lv))
  | pushMember n => exact ((((Lvl.of (k := 0) (by lv)).app (.name h 0)).app (.of (k := 0) (by lv))).app (.name h 0)).app (.of (by lv))
  | pullMember n => exact ((((Lvl.of (k := 0) (by lv)).app (.name h 0)).app (.of (k := 0) (by lv))).app (.name h 0)).app (.of (by lv))
  | writeMember n => exact ((Lvl.of (k := 0) (by lv)).app (.name h 0)).app (.of (by lv))
  | readMember n => exact ((Lvl.of (k := 0) (by lv)).app (.name h 0)).app (.of (by lv))
  | ifVersion a u => exact ((Lvl.of (k := 0) (by lv)).app (.name (conditionText_noBraces a u) 0)).app (.of (by lv))
  | pushComment => exact .of (by lv)
  | pushVoid => exact .of (by lv)
  | pullVoid => exact .of (by lv)
  | pullRestore => exact .of (by lv)
  | writeComment => exact .of (by lv)
  | writeVoid => exact .of (by lv)
  | readComment => exact .of (by lv)
  | readVoid => exact .of (by lv)
  | readReturn => exact .of (by lv)
  | endIf => exact .of (by lv)
  | padding => exact .of (by lv)
  | funEnd => exact .of (by lv)
  | funEndBlank => exact .of (by lv)

end Verif.Gen
