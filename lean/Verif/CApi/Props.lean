import Verif.CApi.Model

/-!
# Properties C36 and C39: Cartesian-product batches and the handle
-/

namespace PGM.CApi

variable {D μ ο : Type}

/-! ## C39 -/

/-- How an API function reports exceptions. -/
inductive Reporting where
  | regular
  | serialization
  | calculation

/-- The exception handler of a kind of API function: `PGM_calculate` uses `batch_exception_handler`, the
(de)serialisation functions use code 3, all others the default. -/
def Reporting.handler : Reporting → Exn → Handle → Handle
  | .regular => defaultHandler 1
  | .serialization => defaultHandler 3
  | .calculation => batchHandler

/-- One API call: its kind and what the body did. -/
structure Call where
  kind : Reporting
  outcome : Except Exn Unit

/-- A sequence of calls on a handle. -/
def runCalls (h : Option Handle) (calls : List Call) : Option Handle :=
  calls.foldl (fun h c => (callWithCatch h c.outcome c.kind.handler ()).2) h

/-- Specification: what the handle has to say about a single call. -/
def describes (c : Call) (h : Handle) : Prop :=
  match c.outcome with
  | .ok _ => h.errCode = 0 ∧ h.errMsg = "" ∧ h.failed = [] ∧ h.errs = []
  | .error e =>
    h.errCode ≠ 0 ∧
    match c.kind, e with
    | .calculation, .batch m f es => h.errCode = 2 ∧ h.errMsg = m ∧ h.failed = f ∧ h.errs = es
    | _, .batch m _ _ => h.errMsg = m ∧ h.failed = [] ∧ h.errs = []
    | _, .std m => h.errMsg = m ∧ h.failed = [] ∧ h.errs = []
    | _, .other => h.errMsg = "Unknown error!\n" ∧ h.failed = [] ∧ h.errs = []

/-- C39. After any non-empty sequence of calls, starting from any handle content, the handle describes the last call
only. A null handle stays null. -/
theorem handle_describes_last_call (h : Handle) (calls : List Call) (last : Call) :
    ∃ h', runCalls (some h) (calls ++ [last]) = some h' ∧ describes last h' := by
  have hsome : ∀ (calls : List Call) (h : Handle), ∃ h', runCalls (some h) calls = some h' := by
    intro calls
    induction calls with
    | nil => intro h; exact ⟨h, rfl⟩
    | cons c cs ih =>
      intro h
      have : ∃ h1, (callWithCatch (some h) c.outcome c.kind.handler ()).2 = some h1 := by
        unfold callWithCatch
        cases c.outcome <;> exact ⟨_, rfl⟩
      obtain ⟨h1, hh1⟩ := this
      have := ih h1
      rw [← hh1] at this
      exact this
  obtain ⟨h0, h0e⟩ := hsome calls h
  have hap : runCalls (some h) (calls ++ [last]) =
      (callWithCatch (runCalls (some h) calls) last.outcome last.kind.handler ()).2 := by
    simp [runCalls]
  rw [hap, h0e]
  obtain ⟨kind, outcome⟩ := last
  cases outcome with
  | ok a => exact ⟨_, rfl, rfl, rfl, rfl, rfl⟩
  | error e =>
    refine ⟨_, rfl, ?_⟩
    cases kind <;> cases e <;>
      simp [describes, Reporting.handler, defaultHandler, batchHandler, handleRegular, handleUnknown]

/-- C39. The return value is the value of the call, or the value-initialised result if the call failed; the earlier
content of the handle has no influence. -/
theorem return_value (α : Type) (h h' : Handle) (f : Except Exn α) (handler : Exn → Handle → Handle) (empty : α) :
    (callWithCatch (some h) f handler empty).1 = (match f with | .ok a => a | .error _ => empty) ∧
    callWithCatch (some h) f handler empty = callWithCatch (some h') f handler empty := by
  cases f <;> exact ⟨rfl, rfl⟩

/-- Non-vacuity: a batch error followed by a successful call leaves nothing behind. -/
example : runCalls (some {}) [⟨.calculation, .error (.batch "b" [1, 4] ["x", "y"])⟩] =
      some ⟨2, "b", [1, 4], ["x", "y"]⟩ ∧
    runCalls (some {}) [⟨.calculation, .error (.batch "b" [1, 4] ["x", "y"])⟩, ⟨.serialization, .error (.std "s")⟩] =
      some ⟨3, "s", [], []⟩ ∧
    runCalls (some {}) [⟨.calculation, .error (.batch "b" [1, 4] ["x", "y"])⟩, ⟨.regular, .ok ()⟩] = some {} := by
  exact ⟨rfl, rfl, rfl⟩

/-! ## C36, outputs -/

/-- Specification: the output of the combination `is` of scenarios of the dimensions `ds`: all updates but the last
are applied in order to the model, the last dimension is calculated as a batch. `none`: not calculated. -/
def combo (ops : Ops D μ ο) : List D → μ → List Nat → Option ο
  | [], m, _ => (ops.once m).1
  | [d], m, [j] => (ops.batch d m).1 j
  | d :: d2 :: ds, m, i :: is =>
    match ops.upd d i m with
    | .error _ => none
    | .ok m' => combo ops (d2 :: ds) m' is
  | _, _, _ => none

/-- Number of combinations. -/
def total (ops : Ops D μ ο) : List D → Nat
  | [] => 1
  | d :: ds => ops.size d * total ops ds

/-- Row-major number of a combination: `i1*(n2*...*nk) + ... + ik`. -/
def flat (ops : Ops D μ ο) : List D → List Nat → Nat
  | _ :: ds, i :: is => i * total ops ds + flat ops ds is
  | _, _ => 0

/-- The combination is in range. -/
def InRange (ops : Ops D μ ο) : List D → List Nat → Prop
  | [], [] => True
  | d :: ds, i :: is => i < ops.size d ∧ InRange ops ds is
  | _, _ => False

theorem strideSize_eq (ops : Ops D μ ο) (ds : List D) : strideSize ops ds = total ops ds := by
  unfold strideSize
  have : ∀ (ds : List D) (a : Nat), ds.foldl (fun s d => s * ops.size d) a = a * total ops ds := by
    intro ds
    induction ds with
    | nil => intro a; simp [total]
    | cons d ds ih => intro a; simp [total, ih, Nat.mul_assoc]
  simpa using this ds 1

theorem flat_lt (ops : Ops D μ ο) (ds : List D) (is : List Nat) (h : InRange ops ds is) :
    flat ops ds is < total ops ds := by
  induction ds generalizing is with
  | nil =>
    cases is with
    | nil => simp [flat, total]
    | cons _ _ => exact h.elim
  | cons d ds ih =>
    cases is with
    | nil => exact h.elim
    | cons i is =>
      obtain ⟨h1, h2⟩ := h
      have := ih is h2
      have h3 : (i + 1) * total ops ds ≤ ops.size d * total ops ds := Nat.mul_le_mul_right _ h1
      rw [Nat.succ_mul] at h3
      simp only [flat, total]
      omega

/-- What the recursive call does to the output, for any model, slice and buffer. -/
def Writes (ops : Ops D μ ο) (ds : List D) : Prop :=
  ∀ (m : μ) (off : Nat) (buf : Nat → ο),
    (∀ is, InRange ops ds is →
      (calcMD ops ds m off buf).1 (off + flat ops ds is) =
        (combo ops ds m is).getD (buf (off + flat ops ds is))) ∧
    (∀ k, (k < off ∨ off + total ops ds ≤ k) → (calcMD ops ds m off buf).1 k = buf k)

theorem outerStep_fst (ops : Ops D μ ο) (d : D) (stride : Nat) (m : μ) (off : Nat)
    (recur : μ → Nat → (Nat → ο) → (Nat → ο) × Except Exn Unit) (st : (Nat → ο) × Handle) (i : Nat) :
    (outerStep ops d stride m off recur st i).1 =
      match ops.upd d i m with
      | .error _ => st.1
      | .ok m' => (recur m' (off + i * stride) st.1).1 := by
  unfold outerStep callWithCatch
  cases ops.upd d i m with
  | error e => rfl
  | ok m' =>
    simp only
    cases (recur m' (off + i * stride) st.1).2 <;> rfl

theorem outer_loop_writes (ops : Ops D μ ο) (d d2 : D) (ds : List D) (hw : Writes ops (d2 :: ds)) (m : μ) (off : Nat)
    (buf : Nat → ο) (n : Nat) :
    let f := outerStep ops d (total ops (d2 :: ds)) m off (fun m' off' b => calcMD ops (d2 :: ds) m' off' b)
    let r := (List.range n).foldl f (buf, ({} : Handle))
    (∀ i is, i < n → InRange ops (d2 :: ds) is →
      r.1 (off + (i * total ops (d2 :: ds) + flat ops (d2 :: ds) is)) =
        (match ops.upd d i m with | .error _ => none | .ok m' => combo ops (d2 :: ds) m' is).getD
          (buf (off + (i * total ops (d2 :: ds) + flat ops (d2 :: ds) is)))) ∧
    (∀ k, (k < off ∨ off + n * total ops (d2 :: ds) ≤ k) → r.1 k = buf k) := by
  intro f r
  induction n with
  | zero =>
    refine ⟨fun i is h => absurd h (by omega), fun k _ => rfl⟩
  | succ n ih =>
    obtain ⟨ih1, ih2⟩ := ih
    have hr : r = f ((List.range n).foldl f (buf, ({} : Handle))) n := by
      simp only [r, List.range_succ, List.foldl_append, List.foldl_cons, List.foldl_nil]
    have hr1 := outerStep_fst ops d (total ops (d2 :: ds)) m off
      (fun m' off' b => calcMD ops (d2 :: ds) m' off' b) ((List.range n).foldl f (buf, ({} : Handle))) n
    have hr1' : r.1 = match ops.upd d n m with
      | .error _ => ((List.range n).foldl f (buf, ({} : Handle))).1
      | .ok m' => (calcMD ops (d2 :: ds) m' (off + n * total ops (d2 :: ds))
          ((List.range n).foldl f (buf, ({} : Handle))).1).1 := by
      rw [hr]; exact hr1
    have hmul : (n + 1) * total ops (d2 :: ds) = n * total ops (d2 :: ds) + total ops (d2 :: ds) := Nat.succ_mul _ _
    constructor
    · intro i is hi hin
      have hfl := flat_lt ops (d2 :: ds) is hin
      rcases Nat.lt_or_ge i n with hlt | hge
      · have hold := ih1 i is hlt hin
        have hbelow : off + (i * total ops (d2 :: ds) + flat ops (d2 :: ds) is) <
            off + n * total ops (d2 :: ds) := by
          have : (i + 1) * total ops (d2 :: ds) ≤ n * total ops (d2 :: ds) := Nat.mul_le_mul_right _ hlt
          rw [Nat.succ_mul] at this
          omega
        rw [← hold, hr1']
        cases ops.upd d n m with
        | error e => rfl
        | ok m' => exact (hw m' _ _).2 _ (.inl hbelow)
      · have hin' : i = n := by omega
        subst hin'
        have hbuf : ((List.range i).foldl f (buf, ({} : Handle))).1
            (off + (i * total ops (d2 :: ds) + flat ops (d2 :: ds) is)) =
            buf (off + (i * total ops (d2 :: ds) + flat ops (d2 :: ds) is)) := ih2 _ (.inr (by omega))
        rw [hr1']
        cases hu : ops.upd d i m with
        | error e => simpa using hbuf
        | ok m' =>
          have := (hw m' (off + i * total ops (d2 :: ds)) ((List.range i).foldl f (buf, ({} : Handle))).1).1 is hin
          rw [Nat.add_assoc] at this
          simp only
          rw [this, hbuf]
    · intro k hk
      have hold := ih2 k (by rw [hmul] at hk; omega)
      rw [hr1', ← hold]
      cases ops.upd d n m with
      | error e => rfl
      | ok m' => exact (hw m' _ _).2 k (by rw [hmul] at hk; omega)

theorem calcMD_writes (ops : Ops D μ ο) : ∀ ds : List D, Writes ops ds
  | [] => by
    intro m off buf
    constructor
    · intro is _
      simp [calcMD, writeSlice, flat, combo]
    · intro k hk
      simp only [total] at hk
      simp only [calcMD, writeSlice]
      rw [if_neg (by omega)]
  | [d] => by
    intro m off buf
    constructor
    · intro is hin
      match is, hin with
      | [j], hin =>
        have h1 : j < ops.size d := hin.1
        simp [calcMD, writeSlice, flat, combo, total, h1]
    · intro k hk
      simp only [total, Nat.mul_one] at hk
      simp only [calcMD, writeSlice]
      rw [if_neg (by omega)]
  | d :: d2 :: ds => by
    intro m off buf
    have hw := calcMD_writes ops (d2 :: ds)
    have hloop := outer_loop_writes ops d d2 ds hw m off buf (ops.size d)
    constructor
    · intro is hin
      match is, hin with
      | i :: is, hin =>
        have := hloop.1 i is hin.1 hin.2
        simp only [calcMD, strideSize_eq, flat, combo] at this ⊢
        rw [this]
    · intro k hk
      have := hloop.2 k hk
      simp only [calcMD, strideSize_eq] at this ⊢
      exact this

/-- C36. The output slot with the row-major number of a combination holds the calculation of the model with exactly
that combination of updates; slots beyond the product of the sizes are not written. -/
theorem md_outputs (ops : Ops D μ ο) (ds : List D) (m : μ) (buf : Nat → ο) (h : Option Handle) :
    (∀ is, InRange ops ds is →
      (pgmCalculate ops ds m buf h).1 (flat ops ds is) = (combo ops ds m is).getD (buf (flat ops ds is))) ∧
    (∀ k, total ops ds ≤ k → (pgmCalculate ops ds m buf h).1 k = buf k) := by
  have hw := calcMD_writes ops ds m 0 buf
  constructor
  · intro is hin
    have := hw.1 is hin
    simpa [pgmCalculate] using this
  · intro k hk
    exact hw.2 k (.inr (by omega))

/-- C36. The numbering is a bijection: different combinations have different slots. -/
theorem flat_injective (ops : Ops D μ ο) (ds : List D) (is js : List Nat) (hi : InRange ops ds is)
    (hj : InRange ops ds js) (h : flat ops ds is = flat ops ds js) : is = js := by
  induction ds generalizing is js with
  | nil =>
    cases is <;> cases js
    · rfl
    · exact hj.elim
    · exact hi.elim
    · exact hi.elim
  | cons d ds ih =>
    cases is with
    | nil => exact hi.elim
    | cons i is =>
      cases js with
      | nil => exact hj.elim
      | cons j js =>
        obtain ⟨i1, i2⟩ := hi
        obtain ⟨j1, j2⟩ := hj
        have a := flat_lt ops ds is i2
        have b := flat_lt ops ds js j2
        simp only [flat] at h
        have hij : i = j := by
          rcases Nat.lt_trichotomy i j with h1 | h1 | h1
          · have : (i + 1) * total ops ds ≤ j * total ops ds := Nat.mul_le_mul_right _ h1
            rw [Nat.succ_mul] at this; omega
          · exact h1
          · have : (j + 1) * total ops ds ≤ i * total ops ds := Nat.mul_le_mul_right _ h1
            rw [Nat.succ_mul] at this; omega
        subst hij
        rw [ih is js i2 j2 (by omega)]

/-! ## C36, reporting of failures -/

/-- Specification: the failures that ought to be reported: `(scenario number, message)` for each failing combination.
A failing update of an outer dimension makes all its combinations fail. Numbers are relative to the slice. -/
def failures (ops : Ops D μ ο) : List D → μ → List (Nat × String)
  | [], _ => []
  | [d], m =>
    match (ops.batch d m).2 with
    | none => []
    | some (.batch _ f es) => f.zip es
    | some (.std s) => (List.range (ops.size d)).map (fun k => (k, s))
    | some .other => (List.range (ops.size d)).map (fun k => (k, "Unknown error!\n"))
  | d :: d2 :: ds, m =>
    (List.range (ops.size d)).flatMap (fun i =>
      match ops.upd d i m with
      | .error (.std s) => (List.range (total ops (d2 :: ds))).map (fun k => (i * total ops (d2 :: ds) + k, s))
      | .error (.batch s _ _) => (List.range (total ops (d2 :: ds))).map (fun k => (i * total ops (d2 :: ds) + k, s))
      | .error .other =>
        (List.range (total ops (d2 :: ds))).map (fun k => (i * total ops (d2 :: ds) + k, "Unknown error!\n"))
      | .ok m' => (failures ops (d2 :: ds) m').map (fun p => (i * total ops (d2 :: ds) + p.1, p.2)))

/-- The full reporting claim of C36 for one call: the handle lists exactly the failures. -/
def ReportsAll (ops : Ops D μ ο) (ds : List D) (m : μ) (h : Handle) : Prop :=
  (h.errCode = 0 ↔ failures ops ds m = []) ∧ h.failed.zip h.errs = failures ops ds m

/-- The model after the updates of the last scenario of each outer dimension; `none` if one of them fails. -/
def lastModel (ops : Ops D μ ο) : List D → μ → Option (D × μ)
  | [], _ => none
  | [d], m => some (d, m)
  | d :: d2 :: ds, m =>
    match ops.upd d (ops.size d - 1) m with
    | .error _ => none
    | .ok m' => lastModel ops (d2 :: ds) m'

/-- Scenario offset of the last combination of the outer dimensions. -/
def lastOffset (ops : Ops D μ ο) : List D → Nat
  | d :: d2 :: ds => (ops.size d - 1) * total ops (d2 :: ds) + lastOffset ops (d2 :: ds)
  | _ => 0

/-- The outer loop leaves the handle of its last iteration only. -/
theorem outer_loop_handle (ops : Ops D μ ο) (d : D) (stride : Nat) (m : μ) (off : Nat)
    (recur : μ → Nat → (Nat → ο) → (Nat → ο) × Except Exn Unit) (n : Nat) (st : (Nat → ο) × Handle) :
    ∃ b, ((List.range (n + 1)).foldl (outerStep ops d stride m off recur) st).2 =
      match (match ops.upd d n m with | .error e => Except.error e | .ok m' => (recur m' (off + n * stride) b).2) with
      | .ok _ => {}
      | .error e => mdHandler (n * stride) stride e {} := by
  refine ⟨((List.range n).foldl (outerStep ops d stride m off recur) st).1, ?_⟩
  simp only [List.range_succ, List.foldl_append, List.foldl_cons, List.foldl_nil]
  generalize (List.range n).foldl (outerStep ops d stride m off recur) st = s
  unfold outerStep callWithCatch
  cases ops.upd d n m with
  | error e => rfl
  | ok m' =>
    simp only
    cases (recur m' (off + n * stride) s.1).2 <;> rfl

/-- C36, what is true of the reporting (partial): if the updates of the last scenarios of the outer dimensions do not
throw, and the innermost batch throws nothing or a batch error, then the report is the report of the last combination of
the outer dimensions, with right scenario numbers and messages. Missing: failures in all other combinations, which are
lost (see `md_failures_lost`), and failing outer updates, which are reported under wrong numbers (see
`md_update_failure_misnumbered`). -/
theorem md_report_partial (ops : Ops D μ ο) (ds : List D) (m : μ) (off : Nat) (buf : Nat → ο) (d : D) (m' : μ)
    (hlast : lastModel ops ds m = some (d, m')) (hsz : ∀ x ∈ ds, 0 < ops.size x)
    (hb : (ops.batch d m').2 = none ∨ ∃ s f es, (ops.batch d m').2 = some (.batch s f es)) :
    (calcMD ops ds m off buf).2 =
      match (ops.batch d m').2 with
      | none => .ok ()
      | some (.batch s f es) => .error (.batch s (f.map (· + lastOffset ops ds)) es)
      | some e => .error e := by
  match ds, hlast with
  | [x], hlast =>
    simp only [lastModel, Option.some.injEq, Prod.mk.injEq] at hlast
    obtain ⟨rfl, rfl⟩ := hlast
    simp only [calcMD]
    rcases hb with h | ⟨s, f, es, h⟩
    · rw [h]
    · rw [h]; simp [lastOffset]
  | x :: x2 :: xs, hlast =>
    unfold lastModel at hlast
    cases hu : ops.upd x (ops.size x - 1) m with
    | error e => rw [hu] at hlast; cases hlast
    | ok m1 =>
      rw [hu] at hlast
      simp only at hlast
      have hx : 0 < ops.size x := hsz x (by simp)
      obtain ⟨n, hn⟩ : ∃ n, ops.size x = n + 1 := ⟨ops.size x - 1, by omega⟩
      obtain ⟨b, hh⟩ := outer_loop_handle ops x (strideSize ops (x2 :: xs)) m off
        (fun m' off' b => calcMD ops (x2 :: xs) m' off' b) n (buf, ({} : Handle))
      have hn1 : ops.size x - 1 = n := by omega
      rw [hn1] at hu
      rw [hu] at hh
      simp only at hh
      have ih := md_report_partial ops (x2 :: xs) m1 (off + n * strideSize ops (x2 :: xs)) b d m' hlast
        (fun y hy => hsz y (by simp [hy])) hb
      rw [ih] at hh
      simp only [calcMD, hn, hh]
      rcases hb with h | ⟨s, f, es, h⟩
      · rw [h]; simp
      · rw [h]
        simp only [mdHandler, handleRegular, lastOffset, hn1, strideSize_eq, List.nil_append]
        simp [Function.comp_def, Nat.add_assoc, Nat.add_comm]

/-- Finding: the full reporting claim of C36 is false. With two outer scenarios of which the first fails and the second
succeeds, the call reports success. -/
theorem md_failures_lost :
    ∃ (ops : Ops Nat Nat Nat) (ds : List Nat) (m : Nat) (buf : Nat → Nat) (h : Handle),
      (pgmCalculate ops ds m buf (some {})).2 = some h ∧ h.errCode = 0 ∧ failures ops ds m = [(0, "boom")] ∧
      ¬ ReportsAll ops ds m h := by
  refine ⟨⟨fun d => d, fun _ i _ => .ok i, fun _ m => (fun _ => some m, if m = 0 then some (.batch "B" [0] ["boom"]) else none),
    fun m => (some m, none)⟩, [2, 1], 7, fun _ => 0, {}, rfl, rfl, rfl, ?_⟩
  intro hr
  have := hr.1.mp rfl
  revert this
  decide

/-- Finding: a failing update of an outer dimension is reported under the scenario numbers of the first outer
scenario. Here the second outer scenario fails; the handle blames scenarios 0 and 1 instead of 2 and 3. -/
theorem md_update_failure_misnumbered :
    ∃ (ops : Ops Nat Nat Nat) (ds : List Nat) (m : Nat) (buf : Nat → Nat) (h : Handle),
      (pgmCalculate ops ds m buf (some {})).2 = some h ∧ h.failed = [0, 1] ∧
      (failures ops ds m).map Prod.fst = [2, 3] ∧ ¬ ReportsAll ops ds m h := by
  refine ⟨⟨fun d => d, fun _ i m => if i = 1 then .error (.std "bad") else .ok m, fun _ m => (fun _ => some m, none),
    fun m => (some m, none)⟩, [2, 2], 7, fun _ => 0, ⟨2, "bad", [0, 1], ["bad", "bad"]⟩, rfl, rfl, rfl, ?_⟩
  intro hr
  have := hr.2
  revert this
  decide

/-- Non-vacuity of `md_outputs` and `md_report_partial`: three dimensions of sizes 2, 2, 3; the model is a list of the
applied updates. -/
example :
    let ops : Ops Nat (List Nat) (List Nat) :=
      ⟨fun d => d, fun _ i m => .ok (m ++ [i]), fun _ m => (fun j => some (m ++ [j]),
        if m = [1, 1] then some (.batch "B" [2] ["e"]) else none), fun m => (some m, none)⟩
    (pgmCalculate ops [2, 2, 3] [] (fun _ => []) (some {})).1 7 = [1, 0, 1] ∧
    (pgmCalculate ops [2, 2, 3] [] (fun _ => []) (some {})).2 = some ⟨2, "B", [11], ["e"]⟩ := by
  exact ⟨rfl, rfl⟩

end PGM.CApi
