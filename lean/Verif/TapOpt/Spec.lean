import Verif.TapOpt.Model

/-!
# Specification of the tap position optimisation (C25)
-/

namespace PGM.TapOpt

variable {K : Type}

/-- The position lies between the ends of the range, whichever of them is larger. -/
def Tap.Holds (T : Tap K) (p : Int) : Prop := (T.tapMin ≤ p ∧ p ≤ T.tapMax) ∨ (T.tapMax ≤ p ∧ p ≤ T.tapMin)

/-- The end of the range at which the controlled voltage is lowest: a higher tap position raises the voltage at the tap side
and lowers it at the other side. -/
def Tap.lowEnd (T : Tap K) : Int := if T.atTap then T.tapMin else T.tapMax
/-- The end of the range at which the controlled voltage is highest. -/
def Tap.highEnd (T : Tap K) : Int := if T.atTap then T.tapMax else T.tapMin

/-- One position closer to `e`, or `p` itself if it is `e`. -/
def towards (e p : Int) : Int := if p < e then p + 1 else if e < p then p - 1 else p

variable [Field K] [LinearOrder K]

/-- The voltage is within the band. -/
def InBand (T : Tap K) (x : K) : Prop := T.uSet - T.uBand / 2 ≤ x ∧ x ≤ T.uSet + T.uBand / 2
/-- The voltage is above the band. -/
def TooHigh (T : Tap K) (x : K) : Prop := T.uSet + T.uBand / 2 < x
/-- The voltage is below the band. -/
def TooLow (T : Tap K) (x : K) : Prop := x < T.uSet - T.uBand / 2

/-- A regulated transformer at position `p` with controlled voltage `x` is either inside its band or at the end of its
range. -/
def Settled (T : Tap K) (p : Int) (x : K) : Prop :=
  InBand T x ∨ (TooHigh T x ∧ p = T.lowEnd) ∨ (TooLow T x ∧ p = T.highEnd)

/-- Where the scan should move a transformer that is at `p` with controlled voltage `v` (`none`: not a number). -/
def Wanted (T : Tap K) (v : Option K) (p q : Int) : Prop :=
  (T.connected = true → ∀ x, v = some x → TooHigh T x → q = towards T.lowEnd p) ∧
  (T.connected = true → ∀ x, v = some x → TooLow T x → q = towards T.highEnd p) ∧
  (T.connected = false ∨ v = none ∨ (∃ x, v = some x ∧ InBand T x) → q = p)

/-- One adjustment: in the first rank with a transformer that has to move, all transformers that have to move do so by one
position, and no other transformer moves. -/
def Adjusted (C : Cfg K) (v : Volt K) (old new : Pos) : Prop :=
  ∃ (r : Nat) (g : List Nat), C.order[r]? = some g ∧
    (∀ i h, i < r → C.order[i]? = some h → ∀ t ∈ h, Wanted (C.T t) (v t) (old t) (old t)) ∧
    (∀ t ∈ g, Wanted (C.T t) (v t) (old t) (new t)) ∧
    (∀ t, t ∉ g → new t = old t) ∧
    ∃ t ∈ g, new t ≠ old t

/-- The regulated transformers. -/
def Cfg.trafos (C : Cfg K) : List Nat := C.order.flatten

/-- What holds when a calculation starts: by C24 the tap positions are in their ranges. The value -128 stands for a missing
number and cannot be the end of a range. A band has no negative width. -/
structure Ready (C : Cfg K) (s : St) : Prop where
  inRange : ∀ t ∈ C.trafos, (C.T t).Holds (s.pos t)
  min : ∀ t ∈ C.trafos, -128 < (C.T t).tapMin
  max : ∀ t ∈ C.trafos, -128 < (C.T t).tapMax
  band : ∀ t ∈ C.trafos, 0 ≤ (C.T t).uBand
  fresh : s.log = []

/-- The tap positions of successive calculations, the latest first, when taps are scanned from `p0`: the next calculation is
either made at the same positions, or after one adjustment that follows from the result of the previous one. The calculations
are numbered from `n`. -/
inductive Walk (C : Cfg K) (n : Nat) (p0 : Pos) : List Pos → Prop
  | nil : Walk C n p0 []
  | first : Walk C n p0 [p0]
  | again {p : Pos} {l : List Pos} : Walk C n p0 (p :: l) → Walk C n p0 (p :: p :: l)
  | step {p q : Pos} {l : List Pos} {m : Method} {v : Volt K} : Walk C n p0 (p :: l) →
      C.solve (n + l.length) m p = .ok v → Adjusted C v p q → Walk C n p0 (q :: p :: l)

/-- The product of the numbers of iterations that are allowed in each rank. -/
def bound (C : Cfg K) : Nat := ((maxRanges C).map fun r => 2 * r + 1).foldr (· * ·) 1

end PGM.TapOpt
