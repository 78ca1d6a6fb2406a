import Verif.Model.Pull

/-!
# A concrete environment for non-vacuity examples

Classes 0 `Base {int i; map<string,int> m}`, 1 `Derived : Base {vector<string> s; const int k}`,
2 `Node {int v; shared_ptr<Node> next}` (recursive).
-/

namespace Verif.Demo

/-- lexicographic comparison of byte strings (`std::less<std::string>`) -/
def strLt : Str → Str → Bool
  | [], [] => false
  | [], _ :: _ => true
  | _ :: _, [] => false
  | a :: as, b :: bs => if a < b then true else if b < a then false else strLt as bs

def stdLt : Val → Val → Bool
  | .int a, .int b => a < b
  | .str a, .str b => strLt a b
  | _, _ => false

def fI : Field := ⟨0, lit "i", .int .i32⟩
def fM : Field := ⟨0, lit "m", .map false false .str (.int .i32)⟩
def fS : Field := ⟨1, lit "s", .vec .str⟩
def fK : Field := ⟨1, lit "k", .int .i32⟩
def fV : Field := ⟨2, lit "v", .int .i32⟩
def fN : Field := ⟨2, lit "next", .sptr (.cls 2)⟩

def baseInit : Store := [(fI.key, .int 0), (fM.key, .map [])]
def derivedInit : Store := baseInit ++ [(fS.key, .list []), (fK.key, .int 7)]
def nodeInit : Store := [(fV.key, .int 0), (fN.key, .null)]

def g0 : Guard := ⟨0, 0⟩

def base : ClassInfo where
  qname := lit "Base"
  json := ⟨[], [fI, fM], [fI, fM], true, true⟩
  bin := ⟨[], none, [(g0, fI), (g0, fM)], [(g0, fI), (g0, fM)], true⟩
  valInit := baseInit
  defInit := [(fI.key, .indet), (fM.key, .map [])]

def derived : ClassInfo where
  qname := lit "Derived"
  json := ⟨[0], [fS, fK], [fS], true, true⟩
  bin := ⟨[0], some 3, [(⟨2, 0⟩, fS)], [(⟨2, 0⟩, fS)], true⟩
  valInit := derivedInit
  defInit := [(fI.key, .indet), (fM.key, .map []), (fS.key, .list []), (fK.key, .int 7)]

def node : ClassInfo where
  qname := lit "Node"
  json := ⟨[], [fV, fN], [fV, fN], true, true⟩
  bin := ⟨[], none, [(g0, fV), (g0, fN)], [(g0, fV), (g0, fN)], true⟩
  valInit := nodeInit
  defInit := [(fV.key, .indet), (fN.key, .null)]

def env : Env where
  cls c := match c with
    | 0 => some base
    | 1 => some derived
    | 2 => some node
    | _ => none
  lt _ := stdLt
  iter := List.reverse
  iterKV := List.reverse
  dtPrint i := lit (toString i)
  dtParse s := if s = [] then none else some s.length
  tsPrint i := lit (toString i)
  tsParse s := if s = [] then none else some s.length
  maxLen := 1000000

end Verif.Demo
