import Verif.CppApi.Model

/-!
# What objects of the C++ API should do (C66)

A variable holds a value or, after it was moved from, nothing. There are no handles: a function that fails throws.
-/

namespace PGM.CppApi

open PGM.CApi

variable {μ ν : Type}

/-- The exception for an error of the core, by the kind of function: batch errors of calculations name every failed scenario with its message. -/
def exceptionOf : Kind → Exn → Thrown
  | .calculation, .batch m failed errs => .batch m (failed.zip errs)
  | .plain, .batch m _ _ => .regular m
  | .serialization, .batch m _ _ => .serialization m
  | .serialization, .std m => .serialization m
  | _, .std m => .regular m
  | _, .other => .regular "Unknown error!\n"

/-- A batch error has one message per failed scenario. -/
def Matched : Exn → Prop
  | .batch _ failed errs => failed.length = errs.length
  | _ => True

/-- Variables: not existing, moved from, or with a value. -/
inductive Slot (μ : Type) where
  | absent
  | moved
  | holds (m : μ)

/-- The intended meaning of an operation. The value of a variable that was moved from is not used. -/
inductive Intended : (Nat → Slot μ) → Op μ ν → (Nat → Slot μ) → Seen ν → Prop where
  | make (S i kind m) : S i = .absent → Intended S (.make i kind (.ok m)) (Function.update S i (.holds m)) .done
  | makeFails (S i kind e) : S i = .absent → Matched e → Intended S (.make i kind (.error e)) S (.thrown (exceptionOf kind e))
  | copy (S i j m) : S i = .absent → S j = .holds m → Intended S (.copy i j) (Function.update S i (.holds m)) .done
  | assign (S i j m) : S i ≠ .absent → S j = .holds m → Intended S (.assign i j) (Function.update S i (.holds m)) .done
  | move (S i j m) : S i = .absent → S j = .holds m → Intended S (.move i j) (Function.update (Function.update S j .moved) i (.holds m)) .done
  | moveAssign (S i j m) : S i ≠ .absent → S j = .holds m → i ≠ j → Intended S (.moveAssign i j) (Function.update (Function.update S j .moved) i (.holds m)) .done
  | moveSelf (S i m) : S i = .holds m → Intended S (.moveAssign i i) S .done
  | call (S i kind f m v) : S i = .holds m → (f m).2 = .ok v → Intended S (.call i kind f) (Function.update S i (.holds (f m).1)) (.value v)
  | callFails (S i kind f m e) : S i = .holds m → (f m).2 = .error e → Matched e → Intended S (.call i kind f) (Function.update S i (.holds (f m).1)) (.thrown (exceptionOf kind e))
  | destroy (S i) : S i ≠ .absent → Intended S (.destroy i) (Function.update S i .absent) .done

/-- A program with its intended meaning, starting without variables; `P` may exclude operations in some states. -/
inductive IntendedRun (P : (Nat → Slot μ) → Op μ ν → Prop) : (Nat → Slot μ) → List (Op μ ν) → (Nat → Slot μ) → List (Seen ν) → Prop where
  | nil (S) : IntendedRun P S [] S []
  | cons {S op S' s ops S'' l} : P S op → Intended S op S' s → IntendedRun P S' ops S'' l → IntendedRun P S (op :: ops) S'' (s :: l)

/-- The operation is not a copy assignment to a variable that was moved from. -/
def NoRevival (S : Nat → Slot μ) (op : Op μ ν) : Prop := ∀ i j, op = .assign i j → S i ≠ .moved

/-- What a variable of the intended program is in the real one. -/
def Stands (S : Nat → Slot μ) (V : Vars μ) : Prop :=
  ∀ i, match S i with
    | .absent => V i = none
    | .moved => ∃ o, V i = some o ∧ o.object = none
    | .holds m => ∃ o, V i = some o ∧ o.object = some m

end PGM.CppApi
