import Mathlib.Logic.Function.Basic

/-!
# Copied models and the callbacks of their Y buses (property C47)

Prefix of all paths: `P/` = `/repo/power_grid_model_c/power_grid_model/include/power_grid_model/`.

The only mutable object that a Y bus of a model refers to is the solver of its math model, through the callback that
`prepare_solvers` registers. The model follows these references: an address stands for a `MathSolverProxy`. Of a solver we
keep the one piece of state that the callback writes, `parameters_changed_` of the iterative current solver (`none` as long
as that solver does not exist). Simplification: one symmetry; the topology objects are shared through `shared_ptr` to const
and are left out.
-/

namespace PGM.Copy



/-- A model: addresses of its solvers (`MathState::math_solvers_*`, `P/main_core/math_state.hpp` lines 17-30) and the
addresses captured by the callbacks of its Y buses (`parameters_changed_callbacks_`, `P/math_solver/y_bus.hpp` line 585). -/
structure Obj where
  solvers : List Nat
  callbacks : List Nat

/-- All models and all solvers that exist. A solver is `some f` with `f` the flag of its iterative current solver. -/
structure World where
  objs : Nat → Option Obj
  mem : Nat → Option (Option Bool)
  nextObj : Nat
  nextAddr : Nat

/-- Operations on model `i`. -/
inductive Op where
  /-- create a model -/
  | create
  /-- `prepare_solvers` without valid solvers, for `n` math models -/
  | prepare (i n : Nat)
  /-- `prepare_solvers` after a parameter change: refreshes the Y buses -/
  | refresh (i : Nat)
  /-- iterative current calculation with solver `j` of the model -/
  | calculate (i j : Nat)
  /-- change of the topology: `reset_solvers` -/
  | reset (i : Nat)
  /-- copy constructor -/
  | copy (i : Nat)
  /-- destructor -/
  | destroy (i : Nat)

def emptyWorld : World := ⟨fun _ => none, fun _ => none, 0, 0⟩

/-- Free the solvers at the given addresses. -/
def free (mem : Nat → Option (Option Bool)) (as : List Nat) : Nat → Option (Option Bool) :=
  fun a => if a ∈ as then none else mem a

/-- `parameters_changed(true)` on the solver at an address: `MathSolver::parameters_changed`,
`P/math_solver/math_solver.hpp` lines 108-112, and `IterativeCurrentPFSolver::parameters_changed`,
`P/math_solver/iterative_current_pf_solver.hpp` line 162. `none`: the solver does not exist any more. -/
def signal (mem : Nat → Option (Option Bool)) (a : Nat) : Option (Nat → Option (Option Bool)) :=
  match mem a with
  | none => none
  | some f => some (Function.update mem a (some (f.map (fun old => old || true))))

/-- All callbacks of a Y bus vector: `YBus::parameters_changed`, `P/math_solver/y_bus.hpp` lines 587-591, called from
`update_admittance` and `update_admittance_increment` (lines 342-396). -/
def signalAll : List Nat → (Nat → Option (Option Bool)) → Option (Nat → Option (Option Bool))
  | [], mem => some mem
  | a :: as, mem =>
    match signal mem a with
    | none => none
    | some mem' => signalAll as mem'

/-- One operation; `none`: access to an object that does not exist any more (or the caller uses a model that does not
exist). -/
def step (w : World) : Op → Option World
  | .create => some { w with objs := Function.update w.objs w.nextObj (some ⟨[], []⟩), nextObj := w.nextObj + 1 }
  | .prepare i n =>
    -- `P/calculation_preparation.hpp` lines 248-262
    match w.objs i with
    | none => none
    | some o =>
      if o.solvers.isEmpty then
        let as := (List.range n).map (w.nextAddr + ·)
        some { w with
          objs := Function.update w.objs i (some ⟨as, as⟩)
          mem := fun a => if a ∈ as then some none else w.mem a
          nextAddr := w.nextAddr + n }
      else some w
  | .refresh i =>
    -- lines 263-271
    match w.objs i with
    | none => none
    | some o => (signalAll o.callbacks w.mem).map (fun mem => { w with mem := mem })
  | .calculate i j =>
    -- `run_power_flow_iterative_current`, `P/math_solver/math_solver.hpp` lines 143-150: constructs the solver with the flag
    -- set if it does not exist; `run_power_flow` works on a copy of it (`P/math_solver/iterative_pf_solver.hpp` line 36), so
    -- that the reset of the flag in `initialize_derived_solver` does not reach the stored solver
    match w.objs i with
    | none => none
    | some o =>
      match o.solvers[j]? with
      | none => none
      | some a =>
        match w.mem a with
        | none => none
        | some f => some { w with mem := Function.update w.mem a (some (some (f.getD true))) }
  | .reset i =>
    -- `reset_solvers`, `P/calculation_preparation.hpp` lines 118-128
    match w.objs i with
    | none => none
    | some o => some { w with objs := Function.update w.objs i (some ⟨[], []⟩), mem := free w.mem o.solvers }
  | .copy i =>
    -- `MainModel(MainModel const&)`, `P/main_model.hpp` lines 57-62: memberwise copy of `MathState`; `MathSolverProxy` clones
    -- the solver (`P/math_solver/math_solver_dispatch.hpp` line 88), `YBus` copies its callbacks with the references in them
    match w.objs i with
    | none => none
    | some o =>
      let as := (List.range o.solvers.length).map (w.nextAddr + ·)
      some { w with
        objs := Function.update w.objs w.nextObj (some ⟨as, o.callbacks⟩)
        mem := fun a =>
          if w.nextAddr ≤ a ∧ a < w.nextAddr + o.solvers.length then
            (match o.solvers[a - w.nextAddr]? with
              | none => none
              | some b => w.mem b)
          else w.mem a
        nextObj := w.nextObj + 1
        nextAddr := w.nextAddr + o.solvers.length }
  | .destroy i =>
    match w.objs i with
    | none => none
    | some o => some { w with objs := Function.update w.objs i none, mem := free w.mem o.solvers }

/-- A history. -/
def run : World → List Op → Option World
  | w, [] => some w
  | w, op :: ops => (step w op).bind (fun w' => run w' ops)

/-! ## Specification -/

/-- The models that an operation works on exist. -/
def Exists (w : World) : Op → Prop
  | .create => True
  | .prepare i _ | .refresh i | .reset i | .copy i | .destroy i => (w.objs i).isSome
  | .calculate i j => ∃ o, w.objs i = some o ∧ j < o.solvers.length

/-- The flag that decides whether a calculation with solver `j` of model `i` refactorizes the admittance matrix. -/
def usesFreshMatrix (w : World) (i j : Nat) : Option Bool :=
  match w.objs i with
  | none => none
  | some o =>
    match o.solvers[j]? with
    | none => none
    | some a => (w.mem a).map (·.getD true)

/-! ## C47 -/

/-- The property fails: after a model with prepared solvers has been copied and destroyed, a parameter change of the copy
accesses a solver of the destroyed original. -/
theorem copy_accesses_destroyed_original :
    ∃ w, run emptyWorld [.create, .prepare 0 1, .copy 0, .destroy 0] = some w ∧ Exists w (.refresh 1) ∧
      step w (.refresh 1) = none :=
  ⟨_, rfl, rfl, rfl⟩

/-- And as long as the original exists, a parameter change of the copy writes to the solver of the original and not to its
own: here model 1 is the copy, its solver is at address 1, and the callback goes to address 0. -/
theorem copy_signals_original :
    ∃ w, run emptyWorld [.create, .prepare 0 1, .copy 0] = some w ∧
      w.objs 0 = some ⟨[0], [0]⟩ ∧ w.objs 1 = some ⟨[1], [0]⟩ :=
  ⟨_, rfl, rfl, rfl⟩

/-- The state of all solvers: the stored flag is never reset. -/
def FlagsSet (w : World) : Prop := ∀ a f, w.mem a = some (some f) → f = true

theorem signal_flags (mem mem' : Nat → Option (Option Bool)) (a : Nat) (h : ∀ a f, mem a = some (some f) → f = true)
    (hs : signal mem a = some mem') : ∀ a f, mem' a = some (some f) → f = true := by
  intro b f hb
  unfold signal at hs
  cases hm : mem a with
  | none => rw [hm] at hs; cases hs
  | some g =>
    rw [hm] at hs
    simp only [Option.some.injEq] at hs
    subst hs
    by_cases hba : b = a
    · subst hba
      cases g with
      | none => simp at hb
      | some g => simp at hb; exact hb
    · rw [Function.update_of_ne hba] at hb; exact h b f hb

theorem signalAll_flags (as : List Nat) : ∀ (mem mem' : Nat → Option (Option Bool)),
    (∀ a f, mem a = some (some f) → f = true) → signalAll as mem = some mem' →
    ∀ a f, mem' a = some (some f) → f = true := by
  induction as with
  | nil => intro mem mem' h hs; cases hs; exact h
  | cons a as ih =>
    intro mem mem' h hs
    unfold signalAll at hs
    cases hm : signal mem a with
    | none => rw [hm] at hs; cases hs
    | some m1 => rw [hm] at hs; exact ih m1 mem' (signal_flags mem m1 a h hm) hs

theorem step_flags (w w' : World) (op : Op) (h : FlagsSet w) (hs : step w op = some w') : FlagsSet w' := by
  cases op with
  | create => cases hs; exact h
  | prepare i n =>
    simp only [step] at hs
    split at hs
    · cases hs
    · split at hs
      · cases hs
        intro a f hf
        simp only at hf
        split at hf
        · cases hf
        · exact h a f hf
      · cases hs; exact h
  | refresh i =>
    simp only [step] at hs
    split at hs
    · cases hs
    · rename_i o ho
      cases hr : signalAll o.callbacks w.mem with
      | none => rw [hr] at hs; cases hs
      | some m => rw [hr] at hs; cases hs; exact signalAll_flags _ _ _ h hr
  | calculate i j =>
    simp only [step] at hs
    split at hs
    · cases hs
    · split at hs
      · cases hs
      · split at hs
        · cases hs
        · rename_i a _ _ g hg
          cases hs
          intro b f hf
          simp only at hf
          by_cases hba : b = a
          · subst hba
            rw [Function.update_self] at hf
            simp only [Option.some.injEq] at hf
            cases g with
            | none => simpa using hf.symm
            | some g => rw [← hf]; simpa using h b g hg
          · rw [Function.update_of_ne hba] at hf; exact h b f hf
  | reset i =>
    simp only [step] at hs
    split at hs
    · cases hs
    · cases hs
      intro a f hf
      simp only [free] at hf
      split at hf
      · cases hf
      · exact h a f hf
  | copy i =>
    simp only [step] at hs
    split at hs
    · cases hs
    · cases hs
      intro a f hf
      simp only at hf
      split at hf
      · split at hf
        · cases hf
        · exact h _ f hf
      · exact h a f hf
  | destroy i =>
    simp only [step] at hs
    split at hs
    · cases hs
    · cases hs
      intro a f hf
      simp only [free] at hf
      split at hf
      · cases hf
      · exact h a f hf

theorem run_flags (ops : List Op) : ∀ w w', FlagsSet w → run w ops = some w' → FlagsSet w' := by
  induction ops with
  | nil => intro w w' h hr; cases hr; exact h
  | cons op ops ih =>
    intro w w' h hr
    simp only [run] at hr
    cases hs : step w op with
    | none => rw [hs] at hr; cases hr
    | some w1 => rw [hs] at hr; exact ih w1 w' (step_flags w w1 op h hs) hr

/-- What remains true (partial): in every history without access to a destroyed solver, each calculation of each model,
copied or not, works with a newly factorized matrix, so that the misdirected signals do not change any result. Missing for
the full property: the accesses themselves (see the two theorems above). -/
theorem copies_calculate_fresh_partial (ops : List Op) (w : World) (h : run emptyWorld ops = some w) (i j : Nat) (b : Bool)
    (hu : usesFreshMatrix w i j = some b) : b = true := by
  have hf := run_flags ops emptyWorld w (fun a f hf => by cases hf) h
  unfold usesFreshMatrix at hu
  split at hu
  · cases hu
  · split at hu
    · cases hu
    · rename_i a ha
      cases hm : w.mem a with
      | none => rw [hm] at hu; cases hu
      | some g =>
        rw [hm] at hu
        simp only [Option.map_some, Option.some.injEq] at hu
        cases g with
        | none => simpa using hu.symm
        | some g => rw [← hu]; simpa using hf a g hm

/-- The invariant for histories without copies: callbacks go to the solvers of the same model, which exist. -/
structure Owned (w : World) : Prop where
  own : ∀ i o, w.objs i = some o → o.callbacks = o.solvers
  live : ∀ i o a, w.objs i = some o → a ∈ o.solvers → (w.mem a).isSome
  fresh : ∀ i o a, w.objs i = some o → a ∈ o.solvers → a < w.nextAddr
  apart : ∀ i j o o' a, w.objs i = some o → w.objs j = some o' → a ∈ o.solvers → a ∈ o'.solvers → i = j
  new : ∀ i, w.nextObj ≤ i → w.objs i = none

theorem signal_live (mem mem' : Nat → Option (Option Bool)) (a : Nat) (hs : signal mem a = some mem') (b : Nat) :
    (mem' b).isSome = (mem b).isSome := by
  unfold signal at hs
  cases hm : mem a with
  | none => rw [hm] at hs; cases hs
  | some g =>
    rw [hm] at hs
    simp only [Option.some.injEq] at hs
    subst hs
    by_cases hba : b = a
    · subst hba; simp [hm]
    · rw [Function.update_of_ne hba]

theorem signalAll_ok (as : List Nat) : ∀ (mem : Nat → Option (Option Bool)), (∀ a ∈ as, (mem a).isSome) →
    ∃ mem', signalAll as mem = some mem' ∧ ∀ b, (mem' b).isSome = (mem b).isSome := by
  induction as with
  | nil => intro mem _; exact ⟨mem, rfl, fun _ => rfl⟩
  | cons a as ih =>
    intro mem h
    obtain ⟨f, hf⟩ := Option.isSome_iff_exists.mp (h a (by simp))
    have hs : signal mem a = some (Function.update mem a (some (f.map (fun old => old || true)))) := by
      unfold signal; rw [hf]
    obtain ⟨m', h1, h2⟩ := ih _ (fun b hb => by
      rw [signal_live mem _ a hs b]; exact h b (List.mem_cons_of_mem _ hb))
    refine ⟨m', by unfold signalAll; rw [hs]; exact h1, fun b => ?_⟩
    rw [h2 b, signal_live mem _ a hs b]

/-- No copies. -/
def NoCopy : Op → Prop
  | .copy _ => False
  | _ => True

theorem owned_step (w : World) (op : Op) (h : Owned w) (hn : NoCopy op) (he : Exists w op) :
    ∃ w', step w op = some w' ∧ Owned w' := by
  cases op with
  | copy i => exact hn.elim
  | create =>
    refine ⟨_, rfl, ?_⟩
    have key : ∀ i o, Function.update w.objs w.nextObj (some ⟨[], []⟩) i = some o →
        (w.objs i = some o ∧ i ≠ w.nextObj) ∨ (o = ⟨[], []⟩ ∧ i = w.nextObj) := by
      intro i o ho
      by_cases hi : i = w.nextObj
      · subst hi; rw [Function.update_self] at ho; cases ho; exact Or.inr ⟨rfl, rfl⟩
      · rw [Function.update_of_ne hi] at ho; exact Or.inl ⟨ho, hi⟩
    refine ⟨?_, ?_, ?_, ?_, ?_⟩
    · intro i o ho
      rcases key i o ho with ⟨h1, _⟩ | ⟨rfl, _⟩
      · exact h.own i o h1
      · rfl
    · intro i o a ho ha
      rcases key i o ho with ⟨h1, _⟩ | ⟨rfl, _⟩
      · exact h.live i o a h1 ha
      · cases ha
    · intro i o a ho ha
      rcases key i o ho with ⟨h1, _⟩ | ⟨rfl, _⟩
      · exact h.fresh i o a h1 ha
      · cases ha
    · intro i j o o' a ho ho' ha ha'
      rcases key i o ho with ⟨h1, _⟩ | ⟨rfl, _⟩
      · rcases key j o' ho' with ⟨h2, _⟩ | ⟨rfl, _⟩
        · exact h.apart i j o o' a h1 h2 ha ha'
        · cases ha'
      · cases ha
    · intro i hi
      simp only at hi ⊢
      rw [Function.update_of_ne (by omega)]
      exact h.new i (by omega)
  | refresh i =>
    obtain ⟨o, ho⟩ := Option.isSome_iff_exists.mp he
    obtain ⟨mem', h1, h2⟩ := signalAll_ok o.callbacks w.mem (fun a ha => h.live i o a ho (h.own i o ho ▸ ha))
    refine ⟨{ w with mem := mem' }, by simp only [step, ho, h1, Option.map_some], ?_⟩
    exact ⟨h.own, fun j o' a hj ha => by rw [h2]; exact h.live j o' a hj ha, h.fresh, h.apart, h.new⟩
  | calculate i j =>
    obtain ⟨o, ho, hj⟩ := he
    have ha : o.solvers[j]? = some o.solvers[j] := List.getElem?_eq_getElem hj
    obtain ⟨f, hf⟩ := Option.isSome_iff_exists.mp (h.live i o _ ho (List.getElem_mem hj))
    refine ⟨{ w with mem := Function.update w.mem o.solvers[j] (some (some (f.getD true))) },
      by simp only [step, ho, ha, hf], h.own, ?_, h.fresh, h.apart, h.new⟩
    intro k o' b hk hb
    by_cases hb' : b = o.solvers[j]
    · subst hb'; simp
    · simp only [Function.update_of_ne hb']; exact h.live k o' b hk hb
  | prepare i n =>
    obtain ⟨o, ho⟩ := Option.isSome_iff_exists.mp he
    simp only [step, ho]
    split
    · refine ⟨_, rfl, ?_⟩
      have hmem : ∀ a, a ∈ (List.range n).map (w.nextAddr + ·) ↔ w.nextAddr ≤ a ∧ a < w.nextAddr + n := by
        intro a
        simp only [List.mem_map, List.mem_range]
        constructor
        · rintro ⟨x, hx, rfl⟩; omega
        · rintro ⟨h1, h2⟩; exact ⟨a - w.nextAddr, by omega, by omega⟩
      have key : ∀ k o', Function.update w.objs i (some ⟨(List.range n).map (w.nextAddr + ·),
          (List.range n).map (w.nextAddr + ·)⟩) k = some o' →
          (w.objs k = some o' ∧ k ≠ i) ∨ (o' = ⟨(List.range n).map (w.nextAddr + ·),
          (List.range n).map (w.nextAddr + ·)⟩ ∧ k = i) := by
        intro k o' hk
        by_cases hi : k = i
        · subst hi; rw [Function.update_self] at hk; cases hk; exact Or.inr ⟨rfl, rfl⟩
        · rw [Function.update_of_ne hi] at hk; exact Or.inl ⟨hk, hi⟩
      refine ⟨?_, ?_, ?_, ?_, ?_⟩
      · intro k o' hk
        rcases key k o' hk with ⟨h1, _⟩ | ⟨rfl, _⟩
        · exact h.own k o' h1
        · rfl
      · intro k o' a hk ha
        simp only
        split
        · rfl
        · rcases key k o' hk with ⟨h1, _⟩ | ⟨rfl, _⟩
          · exact h.live k o' a h1 ha
          · contradiction
      · intro k o' a hk ha
        simp only
        rcases key k o' hk with ⟨h1, _⟩ | ⟨rfl, _⟩
        · have := h.fresh k o' a h1 ha; omega
        · exact ((hmem a).mp ha).2
      · intro k j o1 o2 a hk hj ha ha'
        rcases key k o1 hk with ⟨h1, _⟩ | ⟨rfl, rfl⟩
        · rcases key j o2 hj with ⟨h2, _⟩ | ⟨rfl, rfl⟩
          · exact h.apart k j o1 o2 a h1 h2 ha ha'
          · have := h.fresh k o1 a h1 ha
            have := (hmem a).mp ha'
            omega
        · rcases key j o2 hj with ⟨h2, _⟩ | ⟨rfl, rfl⟩
          · have := h.fresh j o2 a h2 ha'
            have := (hmem a).mp ha
            omega
          · rfl
      · intro k hk
        simp only at hk ⊢
        by_cases hki : k = i
        · subst hki; rw [h.new k hk] at ho; cases ho
        · rw [Function.update_of_ne hki]; exact h.new k hk
    · exact ⟨w, rfl, h⟩
  | reset i =>
    obtain ⟨o, ho⟩ := Option.isSome_iff_exists.mp he
    refine ⟨{ w with objs := Function.update w.objs i (some ⟨[], []⟩), mem := free w.mem o.solvers },
      by simp only [step, ho], ?_⟩
    have key : ∀ k o', Function.update w.objs i (some ⟨[], []⟩) k = some o' →
        (w.objs k = some o' ∧ k ≠ i) ∨ (o' = ⟨[], []⟩ ∧ k = i) := by
      intro k o' hk
      by_cases hi : k = i
      · subst hi; rw [Function.update_self] at hk; cases hk; exact Or.inr ⟨rfl, rfl⟩
      · rw [Function.update_of_ne hi] at hk; exact Or.inl ⟨hk, hi⟩
    refine ⟨?_, ?_, ?_, ?_, ?_⟩
    · intro k o' hk
      rcases key k o' hk with ⟨h1, _⟩ | ⟨rfl, _⟩
      · exact h.own k o' h1
      · rfl
    · intro k o' a hk ha
      rcases key k o' hk with ⟨h1, hne⟩ | ⟨rfl, _⟩
      · simp only [free]
        split
        · rename_i hin
          exact absurd (h.apart k i o' o a h1 ho ha hin) hne
        · exact h.live k o' a h1 ha
      · cases ha
    · intro k o' a hk ha
      rcases key k o' hk with ⟨h1, _⟩ | ⟨rfl, _⟩
      · exact h.fresh k o' a h1 ha
      · cases ha
    · intro k j o1 o2 a hk hj ha ha'
      rcases key k o1 hk with ⟨h1, _⟩ | ⟨rfl, _⟩
      · rcases key j o2 hj with ⟨h2, _⟩ | ⟨rfl, _⟩
        · exact h.apart k j o1 o2 a h1 h2 ha ha'
        · cases ha'
      · cases ha
    · intro k hk
      simp only at hk ⊢
      by_cases hki : k = i
      · subst hki; rw [h.new k hk] at ho; cases ho
      · rw [Function.update_of_ne hki]; exact h.new k hk
  | destroy i =>
    obtain ⟨o, ho⟩ := Option.isSome_iff_exists.mp he
    refine ⟨{ w with objs := Function.update w.objs i none, mem := free w.mem o.solvers }, by simp only [step, ho], ?_⟩
    have key : ∀ k o', Function.update w.objs i none k = some o' → w.objs k = some o' ∧ k ≠ i := by
      intro k o' hk
      by_cases hi : k = i
      · subst hi; rw [Function.update_self] at hk; cases hk
      · rw [Function.update_of_ne hi] at hk; exact ⟨hk, hi⟩
    refine ⟨?_, ?_, ?_, ?_, ?_⟩
    · intro k o' hk; exact h.own k o' (key k o' hk).1
    · intro k o' a hk ha
      obtain ⟨h1, hne⟩ := key k o' hk
      simp only [free]
      split
      · rename_i hin
        exact absurd (h.apart k i o' o a h1 ho ha hin) hne
      · exact h.live k o' a h1 ha
    · intro k o' a hk ha; exact h.fresh k o' a (key k o' hk).1 ha
    · intro k j o1 o2 a hk hj ha ha'
      exact h.apart k j o1 o2 a (key k o1 hk).1 (key j o2 hj).1 ha ha'
    · intro k hk
      simp only at hk ⊢
      by_cases hki : k = i
      · subst hki; simp
      · rw [Function.update_of_ne hki]; exact h.new k hk

/-- A history in which each operation works on an existing model. -/
def Proper : World → List Op → Prop
  | _, [] => True
  | w, op :: ops => Exists w op ∧ ∀ w', step w op = some w' → Proper w' ops

theorem owned_run (ops : List Op) : ∀ w, Owned w → (∀ op ∈ ops, NoCopy op) → Proper w ops →
    ∃ w', run w ops = some w' ∧ Owned w' := by
  induction ops with
  | nil => intro w h _ _; exact ⟨w, rfl, h⟩
  | cons op ops ih =>
    intro w h hn hp
    obtain ⟨w1, h1, h2⟩ := owned_step w op h (hn op (by simp)) hp.1
    obtain ⟨w2, h3, h4⟩ := ih w1 h2 (fun o ho => hn o (List.mem_cons_of_mem _ ho)) (hp.2 w1 h1)
    exact ⟨w2, by simp only [run, h1, Option.bind_some, h3], h4⟩

/-- The second part that remains true (partial): without copies, no history of existing models accesses a destroyed solver,
and the callbacks of each model go to its own solvers. -/
theorem no_copies_no_sharing_partial (ops : List Op) (hn : ∀ op ∈ ops, NoCopy op) (hp : Proper emptyWorld ops) :
    ∃ w, run emptyWorld ops = some w ∧ (∀ i o, w.objs i = some o → o.callbacks = o.solvers) ∧
      ∀ i j o o' a, w.objs i = some o → w.objs j = some o' → a ∈ o.solvers → a ∈ o'.solvers → i = j := by
  obtain ⟨w, h1, h2⟩ := owned_run ops emptyWorld
    ⟨fun _ _ h => (by cases h), fun _ _ _ h => (by cases h), fun _ _ _ h => (by cases h), fun _ _ _ _ _ h => (by cases h),
      fun _ _ => rfl⟩ hn hp
  exact ⟨w, h1, h2.own, h2.apart⟩

/-- The hypotheses are met: two models, a change of topology and of parameters, and the destruction of one of them. -/
example : ∃ w, run emptyWorld [.create, .create, .prepare 0 2, .prepare 1 1, .calculate 0 1, .refresh 0, .destroy 1,
    .reset 0, .prepare 0 3, .refresh 0] = some w ∧ usesFreshMatrix w 0 2 = some true := ⟨_, rfl, rfl⟩

example : Proper emptyWorld [.create, .prepare 0 2, .refresh 0] :=
  ⟨trivial, fun _ h1 => by cases h1; exact ⟨rfl, fun _ h2 => by cases h2; exact ⟨rfl, fun _ _ => trivial⟩⟩⟩

end PGM.Copy
