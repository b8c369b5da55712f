import Verif.CppApi.Spec

/-!
# The objects and exceptions of the C++ API (C66)
-/

namespace PGM.CppApi

open PGM.CApi

variable {μ ν : Type}

/-! ## Calls -/

theorem callWith_ok {α : Type} (kind : Kind) (h : CApi.Handle) (a empty : α) : callWith kind (some h) (.ok a) empty = some (.ok a, some {}) := by
  simp [callWith, callWithCatch, checkError]

theorem callWith_error {α : Type} (kind : Kind) (h : CApi.Handle) {e : Exn} (he : Matched e) (empty : α) :
    callWith kind (some h) (.error e) empty = some (.error (exceptionOf kind e), some {}) := by
  cases kind <;> cases e <;>
    simp [callWith, callWithCatch, checkError, handlerOf, defaultHandler, batchHandler, handleRegular, handleUnknown, exceptionOf, failedScenarios]
  rename_i m f es
  have : ¬ (es.length < f.length) := by
    simp only [Matched] at he
    omega
  simp [this]

/-- The real variables stand for the intended ones, and those with a value have a handle. -/
def Good (S : Nat → Slot μ) (V : Vars μ) : Prop :=
  ∀ i, match S i with
    | .absent => V i = none
    | .moved => V i = some ⟨none, none⟩
    | .holds m => ∃ h, V i = some ⟨some h, some m⟩

theorem Good.absent {S : Nat → Slot μ} {V : Vars μ} (hg : Good S V) {i : Nat} (hi : S i = .absent) : V i = none := by
  have := hg i
  rw [hi] at this
  exact this

theorem Good.holds {S : Nat → Slot μ} {V : Vars μ} (hg : Good S V) {i : Nat} {m : μ} (hi : S i = .holds m) : ∃ h, V i = some ⟨some h, some m⟩ := by
  have := hg i
  rw [hi] at this
  exact this

theorem Good.present {S : Nat → Slot μ} {V : Vars μ} (hg : Good S V) {i : Nat} (hi : S i ≠ .absent) : ∃ o, V i = some o := by
  have := hg i
  cases h : S i with
  | absent => exact absurd h hi
  | moved =>
    rw [h] at this
    exact ⟨_, this⟩
  | holds m =>
    rw [h] at this
    obtain ⟨x, hx⟩ := this
    exact ⟨_, hx⟩

theorem Good.update_holds {S : Nat → Slot μ} {V : Vars μ} (hg : Good S V) (i : Nat) (m : μ) (h : CApi.Handle) :
    Good (Function.update S i (.holds m)) (Function.update V i (some ⟨some h, some m⟩)) := by
  intro j
  by_cases hj : j = i
  · subst hj
    simp only [Function.update_self]
    exact ⟨h, rfl⟩
  · simp only [Function.update_of_ne hj]
    exact hg j

theorem Good.update_moved {S : Nat → Slot μ} {V : Vars μ} (hg : Good S V) (i : Nat) : Good (Function.update S i .moved) (Function.update V i (some ⟨none, none⟩)) := by
  intro j
  by_cases hj : j = i
  · subst hj
    simp only [Function.update_self]
  · simp only [Function.update_of_ne hj]
    exact hg j

theorem Good.update_absent {S : Nat → Slot μ} {V : Vars μ} (hg : Good S V) (i : Nat) : Good (Function.update S i .absent) (Function.update V i none) := by
  intro j
  by_cases hj : j = i
  · subst hj
    simp only [Function.update_self]
  · simp only [Function.update_of_ne hj]
    exact hg j

theorem good_step (empty : ν) {S S' : Nat → Slot μ} {V : Vars μ} {op : Op μ ν} {s : Seen ν} (hg : Good S V) (hp : NoRevival S op) (hi : Intended S op S' s) :
    ∃ V', step empty V op = some (V', s) ∧ Good S' V' := by
  cases hi with
  | make i kind m ha =>
    refine ⟨_, ?_, hg.update_holds i m {}⟩
    simp only [step, hg.absent ha, Except.map, callWith_ok]
  | makeFails i kind e ha hm =>
    refine ⟨V, ?_, hg⟩
    simp only [step, hg.absent ha, Except.map, callWith_error kind _ hm]
  | copy i j m ha hj =>
    obtain ⟨h, hV⟩ := hg.holds hj
    refine ⟨_, ?_, hg.update_holds i m {}⟩
    simp only [step, hg.absent ha, hV, copyModel, callWith_ok]
  | assign i j m ha hj =>
    obtain ⟨h, hV⟩ := hg.holds hj
    by_cases hij : i = j
    · subst hij
      refine ⟨V, by simp [step, hV], ?_⟩
      intro k
      by_cases hk : k = i
      · subst hk
        rw [Function.update_self]
        exact ⟨h, hV⟩
      · rw [Function.update_of_ne hk]
        exact hg k
    · have hmv := hp i j rfl
      cases hS : S i with
      | absent => exact absurd hS ha
      | moved => exact absurd hS hmv
      | holds m' =>
        obtain ⟨h', hV'⟩ := hg.holds hS
        refine ⟨_, ?_, hg.update_holds i m {}⟩
        simp only [step, hV', hV, if_neg hij, copyModel, callWith_ok]
  | move i j m ha hj =>
    obtain ⟨h, hV⟩ := hg.holds hj
    refine ⟨_, ?_, (hg.update_moved j).update_holds i m h⟩
    simp only [step, hg.absent ha, hV]
  | moveAssign i j m ha hj hij =>
    obtain ⟨h, hV⟩ := hg.holds hj
    obtain ⟨o, hO⟩ := hg.present ha
    refine ⟨_, ?_, (hg.update_moved j).update_holds i m h⟩
    simp only [step, hO, hV, if_neg hij]
  | moveSelf i m hi =>
    obtain ⟨h, hV⟩ := hg.holds hi
    exact ⟨V, by simp [step, hV], hg⟩
  | call i kind f m v hi hf =>
    obtain ⟨h, hV⟩ := hg.holds hi
    refine ⟨_, ?_, hg.update_holds i (f m).1 {}⟩
    simp only [step, hV, hf, callWith_ok]
  | callFails i kind f m e hi hf hm =>
    obtain ⟨h, hV⟩ := hg.holds hi
    refine ⟨_, ?_, hg.update_holds i (f m).1 {}⟩
    simp only [step, hV, hf, callWith_error kind _ hm]
  | destroy i hi =>
    obtain ⟨o, hO⟩ := hg.present hi
    refine ⟨_, ?_, hg.update_absent i⟩
    simp only [step, hO]

theorem good_run (empty : ν) {S S' : Nat → Slot μ} {V : Vars μ} {ops : List (Op μ ν)} {l : List (Seen ν)} (hg : Good S V) (hr : IntendedRun NoRevival S ops S' l) :
    ∃ V', run empty V ops = some (V', l) ∧ Good S' V' := by
  induction hr generalizing V with
  | nil => exact ⟨V, rfl, hg⟩
  | cons hp hi _ ih =>
    obtain ⟨V1, h1, hg1⟩ := good_step empty hg hp hi
    obtain ⟨V2, h2, hg2⟩ := ih hg1
    exact ⟨V2, by simp [run, h1, h2], hg2⟩

/-! ## The property -/

/-- Every program behaves as intended, that is: every function of the core that fails throws the exception for its error, with its message and failed scenarios, every function that succeeds returns its value,
copies are independent and moves transfer the value. Missing: programs that assign a copy to a variable that was moved from; see `revived_object_hides_errors`. -/
theorem program_as_intended_partial (empty : ν) {ops : List (Op μ ν)} {S : Nat → Slot μ} {l : List (Seen ν)} (hr : IntendedRun NoRevival (fun _ => .absent) ops S l) :
    ∃ V, run empty (fun _ => none) ops = some (V, l) ∧ Stands S V := by
  obtain ⟨V, h1, hg⟩ := good_run empty (V := fun _ => none) (fun _ => rfl) hr
  refine ⟨V, h1, ?_⟩
  intro i
  have := hg i
  cases hS : S i with
  | absent =>
    rw [hS] at this
    exact this
  | moved =>
    rw [hS] at this
    exact ⟨_, this, rfl⟩
  | holds m =>
    rw [hS] at this
    obtain ⟨h, hV⟩ := this
    exact ⟨_, hV, rfl⟩

/-- The handle of an object is clean after every call that has a handle, whether it threw or not: the next error is not mistaken for this one. -/
theorem clean_after_call {α : Type} (kind : Kind) (h : CApi.Handle) (r : Except Exn α) (hm : ∀ e, r = .error e → Matched e) (empty : α) : ∃ x, callWith kind (some h) r empty = some (x, some {}) := by
  cases r with
  | ok a => exact ⟨_, callWith_ok kind h a empty⟩
  | error e => exact ⟨_, callWith_error kind h (hm e rfl) empty⟩

/-- The code violates the property: for every value and every failing function, after a model was moved from and a copy was assigned to it, the function fails without an exception, and an empty value is
returned. -/
theorem revived_object_hides_errors (empty : ν) (m : μ) (kind : Kind) (f : μ → μ × Except Exn ν) {e : Exn} (he : (f m).2 = .error e) (hm : Matched e) :
    (∃ S, IntendedRun (fun _ _ => True) (fun _ => .absent)
        [.make 0 .plain (.ok m), .move 1 0, .assign 0 1, .call 0 kind f] S [.done, .done, .done, .thrown (exceptionOf kind e)]) ∧
      ∃ V, run empty (fun _ => none) [.make 0 .plain (.ok m), .move 1 0, .assign 0 1, .call 0 kind f] = some (V, [.done, .done, .done, .value empty]) := by
  constructor
  · refine ⟨_, .cons trivial (.make _ 0 .plain m rfl) (.cons trivial (.move _ 1 0 m ?_ ?_) (.cons trivial (.assign _ 0 1 m ?_ ?_) (.cons trivial (.callFails _ 0 kind f m e ?_ he hm) (.nil _))))⟩
    all_goals simp [Function.update]
  · refine ⟨Function.update (Function.update (Function.update (Function.update (Function.update (fun _ => none) 0 (some ⟨some {}, some m⟩)) 0 (some ⟨none, none⟩)) 1 (some ⟨some {}, some m⟩)) 0 (some ⟨none, some m⟩)) 0
      (some ⟨none, some (f m).1⟩), ?_⟩
    simp [run, step, callWith_ok, Except.map, copyModel, callWith, callWithCatch, checkError, he, Function.update]

/-- A program that meets the hypotheses of `program_as_intended_partial`: a model is made and copied, the copy fails in a batch calculation, is moved, and the original is still as it was. -/
example : ∃ V : Vars Nat, run (0 : Nat) (fun _ => none)
    [.make 0 .plain (.ok 5), .copy 1 0, .call 1 .calculation (fun m => (m + 1, .error (.batch "b" [3, 7] ["x", "y"]))), .move 2 1, .call 2 .plain (fun m => (m, .ok m)), .call 0 .plain (fun m => (m, .ok m)),
      .make 3 .serialization (.error (.std "s"))] =
    some (V, [.done, .done, .thrown (.batch "b" [(3, "x"), (7, "y")]), .done, .value 6, .value 5, .thrown (.serialization "s")]) := by
  have hr : ∃ S, IntendedRun NoRevival (fun _ => (Slot.absent : Slot Nat))
      [.make 0 .plain (.ok 5), .copy 1 0, .call 1 .calculation (fun m => (m + 1, .error (.batch "b" [3, 7] ["x", "y"]))), .move 2 1, .call 2 .plain (fun m => (m, .ok m)), .call 0 .plain (fun m => (m, .ok m)),
        .make 3 .serialization (.error (.std "s"))]
      S [.done, .done, .thrown (.batch "b" [(3, "x"), (7, "y")]), .done, .value 6, .value 5, .thrown (.serialization "s")] := by
    refine ⟨_, .cons ?_ (.make _ 0 .plain 5 rfl) (.cons ?_ (.copy _ 1 0 5 ?_ ?_) (.cons ?_ (.callFails _ 1 .calculation _ 5 (.batch "b" [3, 7] ["x", "y"]) ?_ rfl rfl) (.cons ?_ (.move _ 2 1 6 ?_ ?_)
      (.cons ?_ (.call _ 2 .plain _ 6 6 ?_ rfl) (.cons ?_ (.call _ 0 .plain _ 5 5 ?_ rfl) (.cons ?_ (.makeFails _ 3 .serialization (.std "s") ?_ trivial) (.nil _)))))))⟩
    all_goals first | (intro i j h; cases h) | simp [Function.update]
  obtain ⟨S, hr⟩ := hr
  obtain ⟨V, hV, _⟩ := program_as_intended_partial 0 hr
  exact ⟨V, hV⟩

end PGM.CppApi
