import Verif.YBus.Sort
import Mathlib.Data.List.Perm.Basic
import Mathlib.Tactic.SplitIfs

/-!
# The structure of the admittance matrix: lemmas
-/

namespace PGM.YBus

/-! ## The elements -/

/-- The elements of a branch. -/
def branchElems (b : (Option Nat × Option Nat) × Nat) : List ElemMap :=
  appendElem [] b.1.1 b.1.1 .ff b.2 ++ appendElem [] b.1.1 b.1.2 .ft b.2 ++ appendElem [] b.1.2 b.1.1 .tf b.2 ++
    appendElem [] b.1.2 b.1.2 .tt b.2

/-- The elements of a fill-in. -/
def fillElems (f : (Nat × Nat) × Nat) : List ElemMap := [⟨(f.1.1, f.1.2), ⟨.fillFt, f.2⟩⟩, ⟨(f.1.2, f.1.1), ⟨.fillTf, f.2⟩⟩]

theorem appendElem_append (v : List ElemMap) (a b : Option Nat) (ty : ElType) (i : Nat) :
    appendElem v a b ty i = v ++ appendElem [] a b ty i := by
  unfold appendElem
  cases a <;> cases b <;> simp

theorem addBranch_eq (v : List ElemMap) (b : (Option Nat × Option Nat) × Nat) : addBranch v b = v ++ branchElems b := by
  unfold addBranch branchElems
  simp only
  rw [appendElem_append _ b.1.2 b.1.2, appendElem_append _ b.1.2 b.1.1, appendElem_append _ b.1.1 b.1.2,
    appendElem_append v b.1.1 b.1.1]
  simp only [List.append_assoc]

theorem foldl_append_eq {α β : Type} (f : List β → α → List β) (g : α → List β) (h : ∀ v a, f v a = v ++ g a) (l : List α)
    (v : List β) : l.foldl f v = v ++ l.flatMap g := by
  induction l generalizing v with
  | nil => simp
  | cons a l ih => rw [List.foldl_cons, ih, h, List.flatMap_cons, List.append_assoc]

theorem collect_eq (T : Topo) :
    collect T = T.branches.zipIdx.flatMap branchElems ++
      ((List.range T.nBus).flatMap fun bus => (shuntsOf T bus).map fun k => ⟨(bus, bus), ⟨.shunt, k⟩⟩) ++
      T.fillIn.zipIdx.flatMap fillElems := by
  unfold collect
  simp only
  rw [foldl_append_eq addFillIn fillElems (fun v a => by simp [addFillIn, fillElems, appendElem]),
    foldl_append_eq _ (fun bus => (shuntsOf T bus).map fun k => (⟨(bus, bus), ⟨.shunt, k⟩⟩ : ElemMap)) (fun v bus => by
      rw [foldl_append_eq _ (fun k => [(⟨(bus, bus), ⟨.shunt, k⟩⟩ : ElemMap)]) (fun v k => by simp [appendElem])]
      rw [List.map_eq_flatMap]),
    foldl_append_eq addBranch branchElems addBranch_eq]
  simp

/-- The elements at a position. -/
def at_ (T : Topo) (p : Pos) : List ElemMap := (collect T).filter fun x => decide (x.pos = p)

theorem mem_branchElems {b : (Option Nat × Option Nat) × Nat} {x : ElemMap} :
    x ∈ branchElems b ↔
      (∃ f, b.1.1 = some f ∧ x = ⟨(f, f), ⟨.ff, b.2⟩⟩) ∨ (∃ f t, b.1.1 = some f ∧ b.1.2 = some t ∧ x = ⟨(f, t), ⟨.ft, b.2⟩⟩) ∨
      (∃ f t, b.1.1 = some f ∧ b.1.2 = some t ∧ x = ⟨(t, f), ⟨.tf, b.2⟩⟩) ∨ (∃ t, b.1.2 = some t ∧ x = ⟨(t, t), ⟨.tt, b.2⟩⟩) := by
  obtain ⟨⟨f, t⟩, k⟩ := b
  unfold branchElems
  cases f <;> cases t <;> simp [appendElem]

theorem mem_collect {T : Topo} {x : ElemMap} :
    x ∈ collect T ↔
      (∃ b k, T.branches[k]? = some b ∧ x ∈ branchElems (b, k)) ∨
      (∃ bus k, bus < T.nBus ∧ T.shuntBus[k]? = some bus ∧ x = ⟨(bus, bus), ⟨.shunt, k⟩⟩) ∨
      (∃ f k, T.fillIn[k]? = some f ∧ x ∈ fillElems (f, k)) := by
  rw [collect_eq, List.mem_append, List.mem_append, or_assoc]
  refine or_congr ?_ (or_congr ?_ ?_)
  · rw [List.mem_flatMap]
    constructor
    · rintro ⟨⟨b, k⟩, h1, h2⟩
      exact ⟨b, k, List.mem_zipIdx_iff_getElem?.mp h1, h2⟩
    · rintro ⟨b, k, h1, h2⟩
      exact ⟨(b, k), List.mem_zipIdx_iff_getElem?.mpr h1, h2⟩
  · rw [List.mem_flatMap]
    constructor
    · rintro ⟨bus, h1, h2⟩
      rw [List.mem_map] at h2
      obtain ⟨k, hk, rfl⟩ := h2
      unfold shuntsOf at hk
      rw [List.mem_filter] at hk
      exact ⟨bus, k, List.mem_range.mp h1, by simpa using hk.2, rfl⟩
    · rintro ⟨bus, k, h1, h2, rfl⟩
      refine ⟨bus, List.mem_range.mpr h1, List.mem_map.mpr ⟨k, ?_, rfl⟩⟩
      unfold shuntsOf
      rw [List.mem_filter]
      exact ⟨List.mem_range.mpr (List.getElem?_eq_some_iff.mp h2).1, by simpa using h2⟩
  · rw [List.mem_flatMap]
    constructor
    · rintro ⟨⟨b, k⟩, h1, h2⟩
      exact ⟨b, k, List.mem_zipIdx_iff_getElem?.mp h1, h2⟩
    · rintro ⟨b, k, h1, h2⟩
      exact ⟨(b, k), List.mem_zipIdx_iff_getElem?.mpr h1, h2⟩

/-- The type and the index of an element determine its position. -/
theorem pos_of_el {T : Topo} {x y : ElemMap} (hx : x ∈ collect T) (hy : y ∈ collect T) (h : x.el = y.el) : x.pos = y.pos := by
  rw [mem_collect] at hx hy
  rcases hx with ⟨b, k, hb, hx⟩ | ⟨b, k, _, hb, rfl⟩ | ⟨f, k, hf, hx⟩ <;>
    rcases hy with ⟨b', k', hb', hy⟩ | ⟨b', k', _, hb', rfl⟩ | ⟨f', k', hf', hy⟩
  · rw [mem_branchElems] at hx hy
    rcases hx with ⟨_, h1, rfl⟩ | ⟨_, _, h1, h2, rfl⟩ | ⟨_, _, h1, h2, rfl⟩ | ⟨_, h1, rfl⟩ <;>
      rcases hy with ⟨_, h1', rfl⟩ | ⟨_, _, h1', h2', rfl⟩ | ⟨_, _, h1', h2', rfl⟩ | ⟨_, h1', rfl⟩ <;> simp_all
  · rw [mem_branchElems] at hx
    rcases hx with ⟨_, h1, rfl⟩ | ⟨_, _, h1, h2, rfl⟩ | ⟨_, _, h1, h2, rfl⟩ | ⟨_, h1, rfl⟩ <;> simp_all
  · rw [mem_branchElems] at hx
    rcases hx with ⟨_, h1, rfl⟩ | ⟨_, _, h1, h2, rfl⟩ | ⟨_, _, h1, h2, rfl⟩ | ⟨_, h1, rfl⟩ <;>
      simp [fillElems] at hy <;> rcases hy with rfl | rfl <;> simp_all
  · rw [mem_branchElems] at hy
    rcases hy with ⟨_, h1, rfl⟩ | ⟨_, _, h1, h2, rfl⟩ | ⟨_, _, h1, h2, rfl⟩ | ⟨_, h1, rfl⟩ <;> simp_all
  · simp_all
  · simp [fillElems] at hy; rcases hy with rfl | rfl <;> simp_all
  · rw [mem_branchElems] at hy
    rcases hy with ⟨_, h1, rfl⟩ | ⟨_, _, h1, h2, rfl⟩ | ⟨_, _, h1, h2, rfl⟩ | ⟨_, h1, rfl⟩ <;>
      simp [fillElems] at hx <;> rcases hx with rfl | rfl <;> simp_all
  · simp [fillElems] at hx; rcases hx with rfl | rfl <;> simp_all
  · simp [fillElems] at hx hy
    rcases hx with rfl | rfl <;> rcases hy with rfl | rfl <;> simp_all

/-- Exchange of the two directions. -/
def swapEl (e : Elem) : Elem :=
  { e with type := match e.type with
      | .ft => .tf
      | .tf => .ft
      | .fillFt => .fillTf
      | .fillTf => .fillFt
      | t => t }

/-- The elements at a position off the diagonal are those at the transposed position, in the same order, with the directions
exchanged. -/
theorem at_transposed (T : Topo) (r c : Nat) (h : r ≠ c) :
    (at_ T (c, r)).map (·.el) = (at_ T (r, c)).map fun x => swapEl x.el := by
  unfold at_
  rw [collect_eq]
  simp only [List.filter_append, List.map_append]
  have h' : ¬ c = r := fun e => h e.symm
  congr 1
  congr 1
  · simp only [List.filter_flatMap, List.map_flatMap]
    congr 1
    funext b
    obtain ⟨⟨f, t⟩, k⟩ := b
    unfold branchElems
    rcases f with _ | f <;> rcases t with _ | t
    · simp [appendElem]
    · have : ¬ (t = r ∧ t = c) := fun e => h (e.1.symm.trans e.2)
      have : ¬ (t = c ∧ t = r) := fun e => h (e.2.symm.trans e.1)
      simp [appendElem, List.filter_cons, *]
    · have : ¬ (f = r ∧ f = c) := fun e => h (e.1.symm.trans e.2)
      have : ¬ (f = c ∧ f = r) := fun e => h (e.2.symm.trans e.1)
      simp [appendElem, List.filter_cons, *]
    · have : ¬ (t = r ∧ t = c) := fun e => h (e.1.symm.trans e.2)
      have : ¬ (t = c ∧ t = r) := fun e => h (e.2.symm.trans e.1)
      have : ¬ (f = r ∧ f = c) := fun e => h (e.1.symm.trans e.2)
      have : ¬ (f = c ∧ f = r) := fun e => h (e.2.symm.trans e.1)
      by_cases h1 : f = r <;> by_cases h2 : t = c <;> by_cases h3 : f = c <;> by_cases h4 : t = r <;>
        simp_all [appendElem, List.filter_cons, swapEl]
  · rw [List.filter_eq_nil_iff.mpr, List.filter_eq_nil_iff.mpr]
    · rfl
    all_goals
      intro x hx
      rw [List.mem_flatMap] at hx
      obtain ⟨bus, _, hx⟩ := hx
      rw [List.mem_map] at hx
      obtain ⟨k, _, rfl⟩ := hx
      simp only [decide_eq_true_eq, Prod.mk.injEq, not_and]
      omega
  · simp only [List.filter_flatMap, List.map_flatMap]
    congr 1
    funext b
    obtain ⟨⟨f, t⟩, k⟩ := b
    unfold fillElems
    by_cases h1 : f = r <;> by_cases h2 : t = c <;> by_cases h3 : f = c <;> by_cases h4 : t = r <;>
        simp_all [List.filter_cons, swapEl]

/-! ## The loop -/

/-- One position. -/
def stepPos (T : Topo) (b : Build) (p : Pos) : Build :=
  match at_ T p with
  | [] => b
  | e :: es => if e.el.type.isFill then (b.lu p).fill T.branches.length e.el else (b.lu p).entry p e.el (1 + es.length)

/-- Fill-ins do not share their position. -/
def FillAlone (T : Topo) : Prop := ∀ p, ∀ x ∈ at_ T p, x.el.type.isFill = true → at_ T p = [x]

theorem buildLoop_cons (nB : Nat) (e : ElemMap) (es : List ElemMap) (b : Build) :
    buildLoop nB (e :: es) b =
      if e.el.type.isFill then buildLoop nB es ((b.lu e.pos).fill nB e.el)
      else buildLoop nB (es.dropWhile fun x => decide (x.pos = e.pos))
        ((b.lu e.pos).entry e.pos e.el (1 + (es.takeWhile fun x => decide (x.pos = e.pos)).length)) := by
  rw [buildLoop]

theorem buildLoop_eq (T : Topo) (hf : FillAlone T) (ps : List Pos) (hn : ps.Nodup) (b : Build) :
    buildLoop T.branches.length (ps.flatMap (at_ T)) b = ps.foldl (stepPos T) b := by
  induction ps generalizing b with
  | nil => simp [buildLoop]
  | cons p ps ih =>
    rw [List.nodup_cons] at hn
    rw [List.flatMap_cons, List.foldl_cons, ← ih hn.2]
    cases hp : at_ T p with
    | nil => simp [stepPos, hp]
    | cons e es =>
      have hpos : ∀ x ∈ at_ T p, x.pos = p := fun x hx => by
        have := (List.mem_filter.mp hx).2; simpa using this
      have hep : e.pos = p := hpos e (by simp [hp])
      have hrest : ∀ x ∈ ps.flatMap (at_ T), x.pos ≠ p := by
        intro x hx e
        rw [List.mem_flatMap] at hx
        obtain ⟨q, hq, hx⟩ := hx
        have : x.pos = q := by have := (List.mem_filter.mp hx).2; simpa using this
        rw [← e, this] at hn
        exact hn.1 hq
      rw [List.cons_append, buildLoop_cons]
      unfold stepPos
      rw [hp]
      simp only
      split_ifs with hfill
      · have : at_ T p = [e] := hf p e (by simp [hp]) hfill
        rw [hp] at this
        injection this with _ hes
        rw [hes, hep]; rfl
      · rw [hep]
        have h1 : ∀ x ∈ es, (decide (x.pos = p)) = true := fun x hx => by simpa using hpos x (by simp [hp, hx])
        have h2 : (es ++ ps.flatMap (at_ T)).dropWhile (fun x => decide (x.pos = p)) = ps.flatMap (at_ T) := by
          rw [List.dropWhile_append_of_pos h1]
          cases hr : ps.flatMap (at_ T) with
          | nil => rfl
          | cons y ys =>
            rw [List.dropWhile_cons_of_neg]
            have := hrest y (by simp [hr])
            simpa using this
        have h3 : (es ++ ps.flatMap (at_ T)).takeWhile (fun x => decide (x.pos = p)) = es := by
          rw [List.takeWhile_append_of_pos h1]
          cases hr : ps.flatMap (at_ T) with
          | nil => simp
          | cons y ys =>
            rw [List.takeWhile_cons_of_neg]
            · simp
            · have := hrest y (by simp [hr])
              simpa using this
        rw [h2, h3]

end PGM.YBus
