import Verif.StateEst.Examples
import Verif.Observability.Examples

/-!
# Which measurements the state estimation refuses (C40, C52)

`Observability` is about yes-or-no information on sensors. Here the information is what the estimation reads from its measured values.
-/

namespace PGM.StateEst

open PGM.YBus PGM.Lu PGM.PowerFlow PGM.Observability

variable {s : Symm} {K : Type} [Field K]

/-- A power or a current is measured at one of the ends of the branch. -/
def FlowMeasured (M : Measured s) (k : Nat) : Prop := ∃ (side : Fin 2), M.branchPower side k ≠ none ∨ M.branchCurrent side k ≠ none

/-- The voltage of the bus is measured with its angle. -/
def AngleMeasured (M : Measured s) (v : Nat) : Prop := ∃ value var, M.voltage v = some ⟨.phasor value, var⟩

/-- With these voltages all measured flows of connected branches and all measured injections are zero. -/
structure Invisible (T : Topo) (M : Measured s) (y U : Nat → K) : Prop where
  branch : ∀ (k f t : Nat), T.branches[k]? = some (some f, some t) → FlowMeasured M k → y k * (U f - U t) = 0
  bus : ∀ v, v < T.nBus → M.injection v ≠ none → injected T y U v = 0

theorem isSome_iff {A : Type} (o : Option A) : o.isSome = true ↔ o ≠ none := by cases o <;> simp

theorem flow_flags (T : Topo) (M : Measured s) (k : Nat) : HasFlowSensor (flags T M) k ↔ FlowMeasured M k := by
  unfold HasFlowSensor FlowMeasured flags
  simp only [isSome_iff, Fin.exists_fin_two]
  tauto

theorem phasor_flags (T : Topo) (M : Measured s) (v : Nat) : HasPhasor (flags T M) v ↔ AngleMeasured M v := by
  unfold HasPhasor AngleMeasured flags
  dsimp only
  rcases M.voltage v with _ | ⟨_ | _, _⟩ <;> simp [isPhasor]

theorem unseen_flags (T : Topo) (M : Measured s) (y U : Nat → K) : Unseen T (flags T M) y U ↔ Invisible T M y U := by
  constructor
  · intro h
    exact ⟨fun k f t hk hf => h.branch k f t hk ((flow_flags T M k).mpr hf), fun v hv hi => h.bus v hv ((isSome_iff _).mpr hi)⟩
  · intro h
    exact ⟨fun k f t hk hf => h.branch k f t hk ((flow_flags T M k).mp hf), fun v hv hi => h.bus v hv ((isSome_iff _).mp hi)⟩

theorem seLoop_other (N : SeNet s) (M : Measured s) (f : Factors ℂ (s.phases + s.phases)) (data : List (Blk ℂ (s.phases + s.phases))) (tol : ℝ)
    (r : Reason) : ∀ (n : Nat) (u : Nat → CV s), seLoop N M f data tol n u ≠ .error (.observability r) := by
  intro n
  induction n with
  | zero => intro u h; cases h
  | succ n ih =>
    intro u h
    rw [seLoop] at h
    split at h
    · cases h
    · split_ifs at h
      exact ih _ h

theorem refused_iff (N : SeNet s) (M : Measured s) (tol : ℝ) (maxIter : Nat) (old : List (Gain s))
    (perms : List (BlockPerm (s.phases + s.phases))) (start : Nat → CV s) (r : Reason) :
    seVoltages N M tol maxIter old perms start = .error (.observability r) ↔ check N.T N.radial N.S (flags N.T M) = .throws r := by
  unfold seVoltages
  split
  · rename_i obs ill hc
    constructor
    · intro h
      split at h
      · cases h
      · exact absurd h (seLoop_other N M _ _ tol r _ _)
    · intro h; rw [hc] at h; cases h
  · rename_i r' hc
    rw [hc]
    constructor
    · intro h; cases h; rfl
    · intro h; cases h; rfl

/-- C40, C52: in a radial island in which a voltage is measured, at most one of them with its angle, and not none if currents are measured with a
global angle, the estimation raises an error of observability exactly if the measured flows and injections do not determine the differences between
the voltages: there are voltages that are not all equal and that none of the measurements notices. -/
theorem estimation_refused_iff (N : SeNet s) (hv : N.T.Valid) (hS : build N.T = some N.S) (hr : Radial N.T) (hrad : N.radial = true) (M : Measured s)
    (hV : ∃ v, v < N.T.nBus ∧ M.voltage v ≠ none)
    (hP : ∀ a b, a < N.T.nBus → b < N.T.nBus → AngleMeasured M a → AngleMeasured M b → a = b)
    (hG : (∃ (k : Nat) (side : Fin 2) (c : CurrM s), k < N.T.branches.length ∧ M.branchCurrent side k = some c ∧ c.globalAngle = true) →
      ∃ v, v < N.T.nBus ∧ AngleMeasured M v)
    (y : Nat → K) (hy : Proper N.T y) (tol : ℝ) (maxIter : Nat) (old : List (Gain s)) (perms : List (BlockPerm (s.phases + s.phases)))
    (start : Nat → CV s) :
    (∃ r, seVoltages N M tol maxIter old perms start = .error (.observability r)) ↔
      ∃ U : Nat → K, Invisible N.T M y U ∧ ∃ a b, a < N.T.nBus ∧ b < N.T.nBus ∧ U a ≠ U b := by
  have hdet : (∃ U : Nat → K, Invisible N.T M y U ∧ ∃ a b, a < N.T.nBus ∧ b < N.T.nBus ∧ U a ≠ U b) ↔ ¬ Determined N.T (flags N.T M) y := by
    unfold Determined
    simp only [unseen_flags]
    push Not
    rfl
  obtain ⟨h1, h2⟩ := radial_accepts hv hS hr (flags N.T M)
    (by obtain ⟨v, a, b⟩ := hV; exact ⟨v, a, (isSome_iff _).mpr b⟩)
    (by intro a b ha hb; rw [phasor_flags, phasor_flags]; exact hP a b ha hb)
    (by
      intro hg
      simp only [phasor_flags]
      apply hG
      unfold flags at hg
      dsimp only at hg
      rw [List.any_eq_true] at hg
      obtain ⟨k, hk, h⟩ := hg
      rw [List.mem_range] at hk
      rw [Bool.or_eq_true] at h
      rcases h with h | h
      · rcases hc : M.branchCurrent 0 k with _ | c
        · rw [hc] at h; cases h
        · rw [hc] at h; exact ⟨k, 0, c, hk, hc, h⟩
      · rcases hc : M.branchCurrent 1 k with _ | c
        · rw [hc] at h; cases h
        · rw [hc] at h; exact ⟨k, 1, c, hk, hc, h⟩) y hy
  rw [hdet]
  simp only [refused_iff, hrad]
  constructor
  · rintro ⟨r, hthrow⟩ hd
    obtain ⟨ill, ha⟩ := h1 hd
    rw [hthrow] at ha
    cases ha
  · exact h2

/-! ## The island of `Examples` -/

theorem exTopo2_radial : Radial exTopo2 := by
  intro r hr
  have : r = 0 := by simp [exTopo2] at hr; omega
  subst this
  exact ⟨1, by decide, ⟨_, List.mem_cons_self, Or.inl rfl⟩, by intro c hc; simp [exTopo2, Connects]; omega⟩

theorem exTopo2_proper : Proper exTopo2 (fun _ => (1 : ℚ)) where
  branch := fun _ _ _ _ => one_ne_zero
  parallel := by
    intro a b hab h
    simp only [exTopo2, List.mem_cons, List.not_mem_nil, or_false, exists_eq_or_imp, exists_eq_left, Connects, Prod.mk.injEq,
      Option.some.injEq] at h
    rcases h with ⟨rfl, rfl⟩ | ⟨rfl, rfl⟩ <;> decide +kernel

/-- The measurements of the example without the flow of the branch and the injection. -/
noncomputable def blind : Measured .sym := { exMeasured with injection := fun _ => none, branchPower := fun _ _ => none }

/-- All hypotheses hold, and the estimation refuses: nothing tells the voltage of bus 1 from that of bus 0. -/
example (S : YBus.Structure) (hS : build exTopo2 = some S) (tol : ℝ) (maxIter : Nat) (old : List (Gain .sym))
    (perms : List (BlockPerm (Symm.sym.phases + Symm.sym.phases))) (start : Nat → CV .sym) :
    ∃ r, seVoltages (exSeNet S) blind tol maxIter old perms start = .error (.observability r) := by
  refine (estimation_refused_iff (exSeNet S) exTopo2_valid hS exTopo2_radial rfl blind ⟨0, (by decide : 0 < 2), by simp [blind, exMeasured]⟩ ?_ ?_
    (fun _ => (1 : ℚ)) exTopo2_proper tol maxIter old perms start).mpr ?_
  · have h : ∀ a, AngleMeasured blind a → a = 0 := by
      rintro a ⟨_, _, h⟩
      by_contra ha
      simp [blind, exMeasured, ha] at h
    intro a b _ _ ha hb
    rw [h a ha, h b hb]
  · rintro ⟨_, _, _, _, h, _⟩
    cases h
  · refine ⟨fun v => if v = 0 then 1 else 0, ⟨?_, fun v _ h => absurd rfl h⟩, 0, 1, (by decide : 0 < 2), (by decide : 1 < 2), by decide⟩
    rintro k f t _ ⟨_, h | h⟩ <;> exact absurd rfl h

end PGM.StateEst
