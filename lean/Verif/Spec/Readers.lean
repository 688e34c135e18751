import Verif.Model.Readers

/-!
# Specification: what readers rely on
-/

namespace Verif.Readers

variable {α : Type}

/-- The items that arrive in a history. -/
def arrived : List (Ev α) → List α
  | [] => []
  | .put x :: evs => x :: arrived evs
  | _ :: evs => arrived evs

/-- The calls of `recv()` in a history. -/
def calls : List (Ev α) → List Nat
  | [] => []
  | .recv id :: evs => id :: calls evs
  | _ :: evs => calls evs

/-- Who got an item by `recv()` or `recv_nowait()`. -/
def byRecv (p : Option Call × α) : Option (Nat × α) :=
  match p.1 with
  | some ⟨id, none⟩ => some (id, p.2)
  | _ => none

/-- The items taken by `read()` or `read_nowait()`. -/
def byRead (p : Option Call × α) : Option α :=
  match p.1 with
  | some ⟨_, some _⟩ => some p.2
  | _ => none

/-- All `read()` calls ask for everything there is (the default). -/
def Ev.greedy : Ev α → Bool
  | .read _ n => decide (n < 0)
  | .readNowait _ n => decide (n < 0)
  | _ => true

/-- Only `recv()` is used, and it is called only when nobody is about to continue; those who are, continue in order. -/
def orderly (bytes : α → List Int) (s : Rx α) : List (Ev α) → Prop
  | [] => True
  | e :: evs =>
    (match e with
     | .put _ => True
     | .recv _ => s.woken = []
     | .turn i => i = 0
     | _ => False) ∧ orderly bytes (s.step bytes e) evs

end Verif.Readers
