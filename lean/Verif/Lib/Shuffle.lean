/-
modules/random.kos:39-56 `random.prototype.shuffle`.
-/
namespace Verif.Shuffle

variable {α σ : Type}

/-- modules/random.kos:48-50; an exception if an index is out of range. -/
def swapAt (l : List α) (i j : Nat) : Option (List α) :=
  match l[i]?, l[j]? with
  | some x, some y => some ((l.set i y).set j x)
  | _, _ => none

/-- modules/random.kos:43-52: `idx` counts down from `max`.  `rand` is `this.integer(0, max)`; `σ` is the state of the source. -/
def loop (rand : σ → Nat × σ) : Nat → σ → List α → Option (List α × σ)
  | 0, s, l => some (l, s)
  | idx + 1, s, l =>
    let r := rand s
    if idx ≠ r.1 then
      match swapAt l idx r.1 with
      | none => none
      | some l => loop rand idx r.2 l
    else loop rand idx r.2 l

/-- modules/random.kos:39-56; `range` gives `this.integer(0, max)` for every `max`. -/
def shuffle (range : Nat → σ → Nat × σ) (s : σ) (l : List α) : Option (List α × σ) :=
  if l.length > 1 then loop (range (l.length - 1)) (l.length - 1) s l else some (l, s)

end Verif.Shuffle
