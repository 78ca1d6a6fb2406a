import Verif.Model.Basic
import Lean.Elab.Tactic

/-!
# Bytes of string literals
-/

namespace Verif.Gen

theorem lit_ofList (l : List Char) : lit (String.ofList l) = l.map (fun c => UInt8.ofNat c.toNat) := by
  rw [lit, String.toList_ofList]

/-- the bytes as an expression -/
def bytesExpr (bytes : List Nat) : Lean.MetaM Lean.Expr := do
  let bytes : List Lean.Expr ← bytes.mapM fun c => Lean.Meta.mkAppM ``UInt8.ofNat #[Lean.mkNatLit c]
  Lean.Meta.mkListLit (Lean.mkConst ``UInt8) bytes

/-- the bytes of a string literal and a proof that `lit` yields them -/
def litExpr (e : Lean.Expr) (str : String) : Lean.MetaM (Lean.Expr × Lean.Expr) := do
  let bytes ← bytesExpr (str.toList.map Char.toNat)
  let prf := Lean.mkApp (Lean.mkConst ``lit_ofList) (Lean.toExpr str.toList)
  return (bytes, ← Lean.Meta.mkExpectedTypeHint prf (← Lean.Meta.mkEq e bytes))

/-- replaces the bytes of a string literal by a list of numbers (evaluating `String.toList` in the kernel takes quadratic time) -/
simproc_decl reduceLit (lit _) := fun e => do
  let_expr lit s := e | return .continue
  let .lit (.strVal str) := s | return .continue
  let (bytes, prf) ← litExpr e str
  return .done { expr := bytes, proof? := some prf }

end Verif.Gen
