/-
  What a queue and a stack are.
-/
import Verif.Thr.Model

namespace Verif.Thr

/-- The elements after some pushes and pops, and whether each pop returned what it
    had to: as many elements as it was asked for, the oldest of a queue, the
    newest of a stack. -/
inductive Behaves : Kind → List Event → List Nat → Prop
  | empty {k : Kind} : Behaves k [] []
  | push {k : Kind} {h : List Event} {q l : List Nat} : Behaves k h q → Behaves k (h ++ [.push l]) (q ++ l)
  | queue {h : List Event} {r q : List Nat} :
      Behaves .queue h (r ++ q) → Behaves .queue (h ++ [.pop r.length r]) q
  | stack {h : List Event} {r q : List Nat} :
      Behaves .stack h (q ++ r) → Behaves .stack (h ++ [.pop r.length r]) q

/-- All that was pushed. -/
def pushed : List Event → List Nat
  | [] => []
  | .push l :: h => l ++ pushed h
  | .pop _ _ :: h => pushed h

/-- All that was returned. -/
def popped : List Event → List Nat
  | [] => []
  | .push _ :: h => popped h
  | .pop _ r :: h => r ++ popped h

end Verif.Thr
