import Verif.Topology.Model
import Mathlib.Algebra.BigOperators.Group.Finset.Basic
import Mathlib.Algebra.Order.BigOperators.Group.Finset
import Mathlib.Algebra.BigOperators.Group.Finset.Piecewise
import Mathlib.Data.List.Nodup
import Mathlib.Logic.Relation
import Mathlib.Tactic.Tauto

/-!
# The depth-first search
-/

namespace PGM.Topology

variable {A : Type} [AddGroup A]

/-- The directed edges stand for undirected ones. -/
structure Bidirected (E : List (Edge A)) (n : Nat) : Prop where
  symm : ∀ e ∈ E, ∃ e' ∈ E, e'.src = e.tgt ∧ e'.tgt = e.src
  range : ∀ e ∈ E, e.src < n ∧ e.tgt < n

/-- The same without loops. -/
structure Undirected (E : List (Edge A)) (n : Nat) : Prop extends Bidirected E n where
  loopless : ∀ e ∈ E, e.src ≠ e.tgt

/-- There is an edge. -/
def Step (E : List (Edge A)) (x y : Nat) : Prop := ∃ e ∈ E, e.src = x ∧ e.tgt = y

theorem Step.symm {E : List (Edge A)} {n : Nat} (h : Bidirected E n) {x y : Nat} (hs : Step E x y) : Step E y x := by
  obtain ⟨e, he, rfl, rfl⟩ := hs
  obtain ⟨e', he', h1, h2⟩ := h.symm e he
  exact ⟨e', he', h1, h2⟩

/-- Going up in the tree. -/
inductive Up (pred : Nat → Nat) : Nat → Nat → Prop
  | refl (x : Nat) : Up pred x x
  | step {x y : Nat} : Up pred (pred x) y → Up pred x y

theorem Up.trans {pred : Nat → Nat} {x y z : Nat} (h : Up pred x y) (h' : Up pred y z) : Up pred x z := by
  induction h with
  | refl => exact h'
  | step _ ih => exact Up.step (ih h')

theorem Up.congr {pred pred' : Nat → Nat} {S : Nat → Prop} (hS : ∀ x, S x → S (pred x)) (hp : ∀ x, S x → pred' x = pred x) {x y : Nat}
    (hx : S x) (h : Up pred x y) : Up pred' x y := by
  induction h with
  | refl => exact Up.refl _
  | step _ ih => exact Up.step (by rw [hp _ hx]; exact ih (hS _ hx))

/-- The classification of the edge between two vertices. -/
def Known (pred : Nat → Nat) (back : List (Nat × Nat)) (x y : Nat) : Prop :=
  pred y = x ∨ pred x = y ∨ (x, y) ∈ back ∨ (y, x) ∈ back

theorem Known.symm {pred : Nat → Nat} {back : List (Nat × Nat)} {x y : Nat} (h : Known pred back x y) : Known pred back y x := by
  unfold Known at *; tauto

/-- What holds during a search from `root` that began with the state `st₀`. -/
structure SInv (E : List (Edge A)) (g root : Nat) (st₀ : Visit A) (stack : List (Nat × List (Edge A))) (st : Visit A) : Prop where
  gray : ∀ v, st.colour v = .gray ↔ v ∈ stack.map (·.1)
  stackNodup : (stack.map (·.1)).Nodup
  chain : ∀ p a b q, stack = p ++ a :: b :: q → st.pred a.1 = b.1
  found : ∀ v, v ∈ st.dfsNode ↔ st₀.colour v = .white ∧ st.colour v ≠ .white
  old : ∀ v, st₀.colour v ≠ .white → st.colour v = st₀.colour v
  nodup : st.dfsNode.Nodup
  order : ∀ p x q, st.dfsNode = p ++ x :: q → (x = root ∧ p = []) ∨ (x ≠ root ∧ st.pred x ∈ p)
  rootIn : root ∈ st.dfsNode
  predRoot : st.pred root = root
  untouched : ∀ v, v ∉ st.dfsNode → st.pred v = st₀.pred v ∧ st.group v = st₀.group v ∧ st.shift v = st₀.shift v
  tree : ∀ x ∈ st.dfsNode, x ≠ root → ∃ e ∈ E, e.src = st.pred x ∧ e.tgt = x ∧ st.shift x = st.shift (st.pred x) + e.shift
  rootShift : st.shift root = st₀.shift root
  group : ∀ x ∈ st.dfsNode, st.group x = some g
  back : ∀ b ∈ st.back, b.1 ∈ st.dfsNode ∧ b.2 ∈ st.dfsNode ∧ st.pred b.1 ≠ b.2 ∧ Up st.pred b.1 b.2 ∧ Step E b.1 b.2
  seen : ∀ x ∈ st.dfsNode, ∀ e ∈ E, e.src = x →
    (∃ es, (x, es) ∈ stack ∧ e ∈ es) ∨ (e.tgt ∈ st.dfsNode ∧ Known st.pred st.back x e.tgt)
  rem : ∀ a ∈ stack, ∀ e ∈ a.2, e ∈ E ∧ e.src = a.1

theorem SInv.pred_mem {E : List (Edge A)} {g root : Nat} {st₀ : Visit A} {stack : List (Nat × List (Edge A))} {st : Visit A}
    (h : SInv E g root st₀ stack st) {x : Nat} (hx : x ∈ st.dfsNode) : st.pred x ∈ st.dfsNode := by
  obtain ⟨p, q, hs⟩ := List.append_of_mem hx
  rcases h.order p x q hs with ⟨rfl, _⟩ | ⟨_, h1⟩
  · rw [h.predRoot]; exact hx
  · rw [hs]; simp [h1]

theorem stack_up {E : List (Edge A)} {g root : Nat} {st₀ : Visit A} {stack : List (Nat × List (Edge A))} {st : Visit A}
    (h : SInv E g root st₀ stack st) (p : List (Nat × List (Edge A))) (a : Nat × List (Edge A)) (q : List (Nat × List (Edge A)))
    (hs : stack = p ++ a :: q) : ∀ b ∈ a :: q, Up st.pred a.1 b.1 := by
  induction q generalizing p a with
  | nil =>
    intro b hb
    rw [List.mem_singleton] at hb
    rw [hb]; exact Up.refl _
  | cons c q ih =>
    intro b hb
    rcases List.mem_cons.mp hb with rfl | hb
    · exact Up.refl _
    · have := ih (p ++ [a]) c (by simp [hs]) b hb
      have hc := h.chain p a c q hs
      exact Up.step (by rw [hc]; exact this)

/-- Between two searches: no vertex is gray, the black ones are complete islands, and a white vertex is its own predecessor. -/
structure Between (E : List (Edge A)) (st₀ : Visit A) : Prop where
  noGray : ∀ v, st₀.colour v ≠ .gray
  closed : ∀ e ∈ E, st₀.colour e.src = .black → st₀.colour e.tgt = .black
  predSelf : ∀ v, st₀.colour v = .white → st₀.pred v = v

section steps

variable {E : List (Edge A)} {n g root : Nat} {st₀ st : Visit A} {u : Nat} {e : Edge A} {es : List (Edge A)}
  {rest : List (Nat × List (Edge A))}

/-- A vertex is left. -/
theorem SInv.leave (h₀ : Between E st₀) (h : SInv E g root st₀ ((u, []) :: rest) st) :
    SInv E g root st₀ rest { st with colour := Function.update st.colour u .black } := by
  have hnd := h.stackNodup
  simp only [List.map_cons, List.nodup_cons] at hnd
  have hu : st.colour u = .gray := (h.gray u).mpr (by simp)
  have hc : ∀ v, ({ st with colour := Function.update st.colour u .black } : Visit A).colour v = if v = u then .black else st.colour v :=
    fun v => Function.update_apply _ _ _ _
  refine ⟨fun v => ?_, hnd.2, fun p a b q hs => h.chain ((u, []) :: p) a b q (by rw [hs]; rfl), fun v => ?_, fun v hv => ?_, h.nodup, h.order,
    h.rootIn, h.predRoot, h.untouched, h.tree, h.rootShift, h.group, h.back, fun x hx e he hsrc => ?_, fun a ha => h.rem a (by simp [ha])⟩
  · rw [hc]
    by_cases hv : v = u
    · subst hv
      simp only [if_true, reduceCtorEq, false_iff]
      exact hnd.1
    · rw [if_neg hv, h.gray]
      simp [hv]
  · rw [hc, h.found]
    by_cases hv : v = u
    · subst hv
      simp [hu]
    · rw [if_neg hv]
  · rw [hc]
    by_cases hvu : v = u
    · subst hvu
      exfalso
      have := h.old v hv
      rw [hu] at this
      exact h₀.noGray v this.symm
    · rw [if_neg hvu]; exact h.old v hv
  · rcases h.seen x hx e he hsrc with ⟨es, h1, h2⟩ | h1
    · left
      rcases List.mem_cons.mp h1 with h3 | h3
      · injection h3 with h3 h4
        rw [h4] at h2; simp at h2
      · exact ⟨es, h3, h2⟩
    · exact Or.inr h1

/-- The gray vertices were found in this search. -/
theorem SInv.stack_found (h₀ : Between E st₀) {stack : List (Nat × List (Edge A))} (h : SInv E g root st₀ stack st) {v : Nat}
    (hv : v ∈ stack.map (·.1)) : v ∈ st.dfsNode := by
  have hg := (h.gray v).mpr hv
  rw [h.found]
  refine ⟨?_, by rw [hg]; simp⟩
  by_contra hne
  have := h.old v hne
  rw [hg] at this
  exact h₀.noGray v this.symm

/-- One edge of the vertex at the top is done, if its classification is known. -/
theorem SInv.pop (h : SInv E g root st₀ ((u, e :: es) :: rest) st) (hk : e.tgt ∈ st.dfsNode ∧ Known st.pred st.back u e.tgt) :
    SInv E g root st₀ ((u, es) :: rest) st := by
  refine ⟨fun v => by simpa using h.gray v, by simpa using h.stackNodup, fun p a b q hs => ?_, h.found, h.old, h.nodup, h.order,
    h.rootIn, h.predRoot, h.untouched, h.tree, h.rootShift, h.group, h.back, fun x hx e' he hsrc => ?_, fun a ha e' he' => ?_⟩
  · cases p with
    | nil =>
      simp only [List.nil_append, List.cons.injEq] at hs
      have := h.chain [] (u, e :: es) b q (by rw [hs.2]; rfl)
      rw [← hs.1]
      exact this
    | cons c p =>
      simp only [List.cons_append, List.cons.injEq] at hs
      exact h.chain ((u, e :: es) :: p) a b q (by rw [hs.2]; rfl)
  · rcases h.seen x hx e' he hsrc with ⟨es', h1, h2⟩ | h1
    · rcases List.mem_cons.mp h1 with h3 | h3
      · injection h3 with h3 h4
        rw [h4] at h2
        rcases List.mem_cons.mp h2 with h2 | h2
        · right
          rw [h2, h3]; exact hk
        · left
          exact ⟨es, by rw [h3]; simp, h2⟩
      · exact Or.inl ⟨es', by simp [h3], h2⟩
    · exact Or.inr h1
  · rcases List.mem_cons.mp ha with rfl | ha
    · exact h.rem (u, e :: es) (by simp) e' (List.mem_cons_of_mem _ he')
    · exact h.rem a (by simp [ha]) e' he'

/-- An edge to a vertex that has been left. -/
theorem SInv.black (hE : Bidirected E n) (h₀ : Between E st₀) (h : SInv E g root st₀ ((u, e :: es) :: rest) st)
    (hb : st.colour e.tgt = .black) : SInv E g root st₀ ((u, es) :: rest) st := by
  apply h.pop
  obtain ⟨heE, hsrc⟩ := h.rem (u, e :: es) (by simp) e (by simp)
  have hsrc : e.src = u := hsrc
  have hu : u ∈ st.dfsNode := h.stack_found h₀ (by simp)
  obtain ⟨e', he', h1, h2⟩ := hE.symm e heE
  have hfound : e.tgt ∈ st.dfsNode := by
    rw [h.found]
    refine ⟨?_, by rw [hb]; simp⟩
    by_contra hne
    have h3 := h.old _ hne
    rw [hb] at h3
    have h4 := h₀.closed e' he' (by rw [h1, ← h3])
    rw [h2, hsrc, ((h.found u).mp hu).1] at h4
    cases h4
  refine ⟨hfound, ?_⟩
  rcases h.seen e.tgt hfound e' he' h1 with ⟨es', h3, _⟩ | ⟨_, h3⟩
  · exfalso
    have := (h.gray e.tgt).mpr (List.mem_map_of_mem (f := (·.1)) h3)
    rw [hb] at this
    cases this
  · rw [h2, hsrc] at h3
    exact h3.symm

/-- An edge to a vertex on the way up. -/
theorem SInv.backStep (h₀ : Between E st₀) (h : SInv E g root st₀ ((u, e :: es) :: rest) st)
    (hb : st.colour e.tgt = .gray) : SInv E g root st₀ ((u, es) :: rest) (backEdge st e) := by
  obtain ⟨heE, hsrc⟩ := h.rem (u, e :: es) (by simp) e (by simp)
  have hsrc : e.src = u := hsrc
  have hu : u ∈ st.dfsNode := h.stack_found h₀ (by simp)
  have ht : e.tgt ∈ st.dfsNode := h.stack_found h₀ ((h.gray _).mp hb)
  unfold backEdge
  by_cases hp : st.pred e.src = e.tgt
  · rw [if_neg (by simpa using hp)]
    exact h.pop ⟨ht, Or.inr (Or.inl (hsrc ▸ hp))⟩
  · rw [if_pos hp]
    have h' : SInv E g root st₀ ((u, e :: es) :: rest) { st with back := st.back ++ [(e.src, e.tgt)] } := by
      refine ⟨h.gray, h.stackNodup, h.chain, h.found, h.old, h.nodup, h.order, h.rootIn, h.predRoot, h.untouched, h.tree, h.rootShift, h.group,
        fun b hb' => ?_, fun x hx e' he' hs => ?_, h.rem⟩
      · rcases List.mem_append.mp hb' with h1 | h1
        · exact h.back b h1
        · rw [List.mem_singleton] at h1
          rw [h1]
          refine ⟨by rw [hsrc]; exact hu, ht, hp, ?_, ⟨e, heE, rfl, rfl⟩⟩
          obtain ⟨c, hc, hc'⟩ := List.mem_map.mp ((h.gray _).mp hb)
          have := stack_up h [] (u, e :: es) rest rfl c hc
          rw [hc'] at this
          show Up st.pred e.src e.tgt
          rw [hsrc]; exact this
      · rcases h.seen x hx e' he' hs with h1 | ⟨h1, h2⟩
        · exact Or.inl h1
        · refine Or.inr ⟨h1, ?_⟩
          unfold Known at *
          simp only [List.mem_append]
          tauto
    refine h'.pop ⟨ht, Or.inr (Or.inr (Or.inl ?_))⟩
    show (u, e.tgt) ∈ st.back ++ [(e.src, e.tgt)]
    rw [hsrc]; simp

/-- An edge to a new vertex. -/
theorem SInv.enter (hE : Bidirected E n) (h₀ : Between E st₀) (h : SInv E g root st₀ ((u, e :: es) :: rest) st)
    (hb : st.colour e.tgt = .white) :
    SInv E g root st₀ ((e.tgt, outEdges E e.tgt) :: (u, es) :: rest) (discover g (treeEdge st e) e.tgt) := by
  obtain ⟨heE, hsrc⟩ := h.rem (u, e :: es) (by simp) e (by simp)
  have hsrc : e.src = u := hsrc
  have hu : u ∈ st.dfsNode := h.stack_found h₀ (by simp)
  set t := e.tgt with ht
  have htn : t ∉ st.dfsNode := fun hm => ((h.found t).mp hm).2 hb
  have hut : u ≠ t := fun e' => htn (e' ▸ hu)
  have htr : t ≠ root := fun e' => htn (e' ▸ h.rootIn)
  have ht0 : st₀.colour t = .white := by
    by_contra hne
    have := h.old t hne
    rw [hb] at this
    exact hne this.symm
  set st' := discover g (treeEdge st e) t with hst'
  have hc : ∀ v, st'.colour v = if v = t then .gray else st.colour v := fun v => Function.update_apply _ _ _ _
  have hpred : ∀ v, st'.pred v = if v = t then u else st.pred v := by
    intro v
    rw [← hsrc]
    exact Function.update_apply _ _ _ _
  have hshift : ∀ v, st'.shift v = if v = t then st.shift u + e.shift else st.shift v := by
    intro v
    rw [← hsrc]
    exact Function.update_apply _ _ _ _
  have hgroup : ∀ v, st'.group v = if v = t then some g else st.group v := fun v => Function.update_apply _ _ _ _
  have hdfs : st'.dfsNode = st.dfsNode ++ [t] := rfl
  have hback : st'.back = st.back := rfl
  have hne : ∀ x ∈ st.dfsNode, x ≠ t := fun x hx e' => htn (e' ▸ hx)
  have hpred' : ∀ x ∈ st.dfsNode, st'.pred x = st.pred x := fun x hx => by rw [hpred, if_neg (hne x hx)]
  have hknown : ∀ x ∈ st.dfsNode, ∀ y ∈ st.dfsNode, Known st.pred st.back x y → Known st'.pred st'.back x y := by
    intro x hx y hy hk
    unfold Known at *
    rw [hpred' x hx, hpred' y hy, hback]
    exact hk
  have hstk : t ∉ ((u, es) :: rest).map (·.1) := by
    intro hm
    have := (h.gray t).mpr (by simpa using hm)
    rw [hb] at this; cases this
  refine ⟨fun v => ?_, ?_, fun p a b q hs => ?_, fun v => ?_, fun v hv => ?_, ?_, fun p x q hs => ?_, ?_, ?_, fun v hv => ?_, fun x hx hxr => ?_,
    ?_, fun x hx => ?_, fun b hb' => ?_, fun x hx e' he' hs => ?_, fun a ha e' he' => ?_⟩
  · rw [hc]
    by_cases hv : v = t
    · simp [hv]
    · rw [if_neg hv, h.gray]
      simp [hv]
  · simp only [List.map_cons, List.nodup_cons]
    refine ⟨by simpa using hstk, by simpa using h.stackNodup⟩
  · cases p with
    | nil =>
      simp only [List.nil_append, List.cons.injEq] at hs
      rw [← hs.1, ← hs.2.1, hpred, if_pos rfl]
    | cons c p =>
      simp only [List.cons_append, List.cons.injEq] at hs
      have hain : a.1 ∈ st.dfsNode := by
        apply h.stack_found h₀
        have : a ∈ (u, es) :: rest := by rw [hs.2]; simp
        rcases List.mem_cons.mp this with rfl | h1
        · simp
        · simp only [List.map_cons, List.mem_cons]
          exact Or.inr (List.mem_map_of_mem (f := (·.1)) h1)
      rw [hpred' _ hain]
      cases p with
      | nil =>
        simp only [List.nil_append, List.cons.injEq] at hs
        rw [← hs.2.1]
        exact h.chain [] (u, e :: es) b q (by rw [hs.2.2]; rfl)
      | cons c' p =>
        simp only [List.cons_append, List.cons.injEq] at hs
        exact h.chain ((u, e :: es) :: p) a b q (by rw [hs.2.2]; rfl)
  · rw [hdfs, List.mem_append, List.mem_singleton, h.found, hc]
    by_cases hv : v = t
    · simp [hv, ht0]
    · simp [hv]
  · rw [hc]
    by_cases hv' : v = t
    · rw [hv'] at hv; exact absurd ht0 hv
    · rw [if_neg hv']; exact h.old v hv
  · rw [hdfs]
    exact List.Nodup.append h.nodup (List.nodup_singleton t) (by
      intro z hz hz'
      rw [List.mem_singleton] at hz'
      exact htn (hz' ▸ hz))
  · rw [hdfs] at hs
    rcases List.append_eq_append_iff.mp hs with ⟨z, h1, h2⟩ | ⟨z, h1, h2⟩
    · cases z with
      | nil =>
        simp only [List.nil_append, List.cons.injEq] at h2
        right
        rw [← h2.1, hpred, if_pos rfl]
        simp only [List.append_nil] at h1
        exact ⟨htr, h1 ▸ hu⟩
      | cons a z =>
        exfalso
        have := congrArg List.length h2
        simp at this
    · cases z with
      | nil =>
        simp only [List.nil_append, List.cons.injEq] at h2
        right
        rw [h2.1, hpred, if_pos rfl]
        simp only [List.append_nil] at h1
        exact ⟨htr, h1 ▸ hu⟩
      | cons a z =>
        simp only [List.cons_append, List.cons.injEq] at h2
        rw [← h2.1] at h1
        have hx : x ∈ st.dfsNode := by rw [h1]; simp
        rw [hpred' x hx]
        exact h.order p x z h1
  · rw [hdfs]; simp [h.rootIn]
  · rw [hpred' root h.rootIn]; exact h.predRoot
  · rw [hdfs, List.mem_append, not_or, List.mem_singleton] at hv
    rw [hpred, hgroup, hshift, if_neg hv.2, if_neg hv.2, if_neg hv.2]
    exact h.untouched v hv.1
  · rw [hdfs, List.mem_append, List.mem_singleton] at hx
    rcases hx with hx | hx
    · obtain ⟨e', h1, h2, h3, h4⟩ := h.tree x hx hxr
      refine ⟨e', h1, ?_, h3, ?_⟩
      · rw [hpred' x hx]; exact h2
      · rw [hpred' x hx, hshift, hshift, if_neg (hne x hx), if_neg (hne _ (h.pred_mem hx))]
        exact h4
    · refine ⟨e, heE, ?_, hx.symm, ?_⟩
      · rw [hx, hpred, if_pos rfl]; exact hsrc
      · rw [hx, hpred, if_pos rfl, hshift, hshift, if_pos rfl, if_neg hut]
  · rw [hshift, if_neg (fun e' => htr e'.symm)]; exact h.rootShift
  · rw [hgroup]
    split_ifs with h1
    · rfl
    · rw [hdfs, List.mem_append, List.mem_singleton] at hx
      exact h.group x (by tauto)
  · rw [hback] at hb'
    obtain ⟨h1, h2, h3, h4, h5⟩ := h.back b hb'
    refine ⟨by rw [hdfs]; simp [h1], by rw [hdfs]; simp [h2], by rw [hpred' _ h1]; exact h3, ?_, h5⟩
    exact Up.congr (S := fun x => x ∈ st.dfsNode) (fun x hx => h.pred_mem hx) hpred' h1 h4
  · rw [hdfs, List.mem_append, List.mem_singleton] at hx
    rcases hx with hx | hx
    · rcases h.seen x hx e' he' hs with ⟨es', h1, h2⟩ | ⟨h1, h2⟩
      · rcases List.mem_cons.mp h1 with h3 | h3
        · injection h3 with h3 h4
          rw [h4] at h2
          rcases List.mem_cons.mp h2 with h2 | h2
          · right
            rw [h2, hdfs]
            refine ⟨by simp [ht], Or.inl ?_⟩
            rw [← ht, hpred, if_pos rfl, h3]
          · left
            exact ⟨es, by rw [h3]; simp, h2⟩
        · exact Or.inl ⟨es', by simp [h3], h2⟩
      · right
        exact ⟨by rw [hdfs]; simp [h1], hknown x hx _ h1 h2⟩
    · left
      exact ⟨outEdges E t, by rw [hx]; simp, List.mem_filter.mpr ⟨he', by simp [hs, hx]⟩⟩
  · rcases List.mem_cons.mp ha with rfl | ha
    · obtain ⟨h1, h2⟩ := List.mem_filter.mp he'
      exact ⟨h1, by simpa using h2⟩
    · rcases List.mem_cons.mp ha with rfl | ha
      · exact h.rem (u, e :: es) (by simp) e' (by simp [he'])
      · exact h.rem a (by simp [ha]) e' he'

end steps

/-! ## The number of steps -/

/-- What is left to do for the white vertices. -/
def whiteWork (E : List (Edge A)) (n : Nat) (colour : Nat → Colour) : Nat :=
  ∑ v ∈ Finset.range n, if colour v = .white then (outEdges E v).length + 1 else 0

/-- What is left to do for the vertices on the stack. -/
def stackWork (stack : List (Nat × List (Edge A))) : Nat := (stack.map fun a => a.2.length + 1).sum

theorem whiteWork_enter (E : List (Edge A)) {n t : Nat} (ht : t < n) {colour colour' : Nat → Colour} (hw : colour t = .white)
    (hc : ∀ v, colour' v = if v = t then .gray else colour v) :
    whiteWork E n colour' + ((outEdges E t).length + 1) = whiteWork E n colour := by
  unfold whiteWork
  rw [← Finset.sum_erase_add _ _ (Finset.mem_range.mpr ht), ← Finset.sum_erase_add (Finset.range n) (fun v => if colour v = .white then _ else _)
    (Finset.mem_range.mpr ht)]
  simp only [hw, hc, if_true, reduceCtorEq, if_false, Nat.add_zero]
  congr 1
  apply Finset.sum_congr rfl
  intro v hv
  rw [if_neg (Finset.ne_of_mem_erase hv)]

theorem whiteWork_congr (E : List (Edge A)) (n : Nat) {colour colour' : Nat → Colour} (h : ∀ v, colour' v = .white ↔ colour v = .white) :
    whiteWork E n colour' = whiteWork E n colour := by
  unfold whiteWork
  apply Finset.sum_congr rfl
  intro v _
  simp only [h]

theorem whiteWork_le (E : List (Edge A)) (n : Nat) (colour : Nat → Colour) : whiteWork E n colour ≤ E.length + n := by
  unfold whiteWork
  have h1 : (∑ v ∈ Finset.range n, if colour v = .white then (outEdges E v).length + 1 else 0) ≤
      ∑ v ∈ Finset.range n, ((outEdges E v).length + 1) := by
    apply Finset.sum_le_sum
    intro v _
    split_ifs <;> omega
  rw [Finset.sum_add_distrib] at h1
  have h0 : ∑ _v ∈ Finset.range n, 1 = n := by simp
  rw [h0] at h1
  have h2 : ∑ v ∈ Finset.range n, (outEdges E v).length ≤ E.length := by
    clear h1
    induction E with
    | nil => simp [outEdges]
    | cons e E ih =>
      have : ∀ v, (outEdges (e :: E) v).length = (if e.src = v then 1 else 0) + (outEdges E v).length := by
        intro v
        unfold outEdges
        rw [List.filter_cons]
        by_cases h : e.src = v
        · simp [h]; omega
        · simp [h]
      simp only [this, Finset.sum_add_distrib, List.length_cons]
      have h3 : (∑ v ∈ Finset.range n, if e.src = v then 1 else 0) ≤ 1 := by
        rw [Finset.sum_ite_eq]
        split_ifs <;> omega
      omega
  omega

theorem search_ok {E : List (Edge A)} {n g root : Nat} {st₀ : Visit A} (hE : Bidirected E n) (h₀ : Between E st₀) (fuel : Nat)
    (stack : List (Nat × List (Edge A))) (st : Visit A) (h : SInv E g root st₀ stack st)
    (hf : stackWork stack + whiteWork E n st.colour ≤ fuel) :
    ∃ st', search E g fuel stack st = some st' ∧ SInv E g root st₀ [] st' := by
  induction fuel generalizing stack st with
  | zero =>
    cases stack with
    | nil => exact ⟨st, by unfold search; rfl, h⟩
    | cons a rest =>
      simp [stackWork] at hf
  | succ fuel ih =>
    match stack, h, hf with
    | [], h, _ => exact ⟨st, by unfold search; rfl, h⟩
    | (u, []) :: rest, h, hf =>
      have hu : st.colour u = .gray := (h.gray u).mpr (by simp)
      unfold search
      apply ih _ _ (h.leave h₀)
      have : whiteWork E n (Function.update st.colour u .black) = whiteWork E n st.colour := by
        apply whiteWork_congr
        intro v
        rw [Function.update_apply]
        by_cases hv : v = u
        · simp [hv, hu]
        · simp [hv]
      simp only [this]
      simp only [stackWork, List.map_cons, List.sum_cons] at hf ⊢
      omega
    | (u, e :: es) :: rest, h, hf =>
      unfold search
      cases hc : st.colour e.tgt with
      | white =>
        simp only
        apply ih _ _ (h.enter hE h₀ hc)
        obtain ⟨heE, _⟩ := h.rem (u, e :: es) (by simp) e (by simp)
        have hw := whiteWork_enter E (hE.range e heE).2 (colour' := (discover g (treeEdge st e) e.tgt).colour) hc
          (fun v => Function.update_apply _ _ _ _)
        simp only [stackWork, List.map_cons, List.sum_cons, List.length_cons] at hf ⊢
        omega
      | gray =>
        simp only
        apply ih _ _ (h.backStep h₀ hc)
        have hw : whiteWork E n (backEdge st e).colour = whiteWork E n st.colour := by
          unfold backEdge; split_ifs <;> rfl
        rw [hw]
        simp only [stackWork, List.map_cons, List.sum_cons, List.length_cons] at hf ⊢
        omega
      | black =>
        simp only
        apply ih _ _ (h.black hE h₀ hc)
        simp only [stackWork, List.map_cons, List.sum_cons, List.length_cons] at hf ⊢
        omega

/-! ## The result of a search -/

/-- The result of a search from `root`. -/
structure Visited (E : List (Edge A)) (g root : Nat) (st₀ st : Visit A) : Prop where
  mem : ∀ v, v ∈ st.dfsNode ↔ Relation.ReflTransGen (Step E) root v
  colour : ∀ v, st.colour v = if v ∈ st.dfsNode then .black else st₀.colour v
  nodup : st.dfsNode.Nodup
  order : ∀ p x q, st.dfsNode = p ++ x :: q → (x = root ∧ p = []) ∨ (x ≠ root ∧ st.pred x ∈ p)
  predRoot : st.pred root = root
  untouched : ∀ v, v ∉ st.dfsNode → st.pred v = st₀.pred v ∧ st.group v = st₀.group v ∧ st.shift v = st₀.shift v
  tree : ∀ x ∈ st.dfsNode, x ≠ root → ∃ e ∈ E, e.src = st.pred x ∧ e.tgt = x ∧ st.shift x = st.shift (st.pred x) + e.shift
  rootShift : st.shift root = st₀.shift root
  group : ∀ x ∈ st.dfsNode, st.group x = some g
  back : ∀ b ∈ st.back, b.1 ∈ st.dfsNode ∧ b.2 ∈ st.dfsNode ∧ st.pred b.1 ≠ b.2 ∧ Up st.pred b.1 b.2 ∧ Step E b.1 b.2
  known : ∀ x y, x ∈ st.dfsNode → Step E x y → Known st.pred st.back x y

theorem visit_ok {E : List (Edge A)} {n g root : Nat} {st₀ : Visit A} (hE : Bidirected E n) (h₀ : Between E st₀) (hr : root < n)
    (hw : st₀.colour root = .white) :
    ∃ st, depthFirstVisit E n g st₀ root = some st ∧ Visited E g root st₀ st ∧ Between E st := by
  have hinit : SInv E g root st₀ [(root, outEdges E root)] (discover g { st₀ with dfsNode := [], back := [] } root) := by
    set st := discover g { st₀ with dfsNode := [], back := [] } root with hst
    have hc : ∀ v, st.colour v = if v = root then .gray else st₀.colour v := fun v => Function.update_apply _ _ _ _
    have hg : ∀ v, st.group v = if v = root then some g else st₀.group v := fun v => Function.update_apply _ _ _ _
    have hd : st.dfsNode = [root] := rfl
    refine ⟨fun v => ?_, by simp, fun p a b q hs => ?_, fun v => ?_, fun v hv => ?_, by rw [hd]; simp, fun p x q hs => ?_, by rw [hd]; simp,
      h₀.predSelf root hw, fun v hv => ?_, fun x hx hxr => ?_, rfl, fun x hx => ?_, fun b hb => ?_, fun x hx e he hs => ?_, fun a ha e he => ?_⟩
    · rw [hc]
      by_cases hv : v = root
      · simp [hv]
      · simp [hv, h₀.noGray v]
    · have := congrArg List.length hs
      simp at this
      omega
    · rw [hd, hc, List.mem_singleton]
      by_cases hv : v = root
      · simp [hv, hw]
      · simp [hv]
    · rw [hc]
      rw [if_neg]
      rintro rfl
      exact hv hw
    · rw [hd] at hs
      cases p with
      | nil =>
        simp only [List.nil_append, List.cons.injEq] at hs
        exact Or.inl ⟨hs.1.symm, rfl⟩
      | cons a p => simp at hs
    · rw [hd, List.mem_singleton] at hv
      rw [hg, if_neg hv]
      exact ⟨rfl, rfl, rfl⟩
    · rw [hd, List.mem_singleton] at hx
      exact absurd hx hxr
    · rw [hd, List.mem_singleton] at hx
      rw [hg, if_pos hx]
    · exact absurd hb (by show b ∉ []; simp)
    · rw [hd, List.mem_singleton] at hx
      exact Or.inl ⟨outEdges E root, by simp [hx], List.mem_filter.mpr ⟨he, by simp [hs, hx]⟩⟩
    · rw [List.mem_singleton] at ha
      rw [ha] at he ⊢
      obtain ⟨h1, h2⟩ := List.mem_filter.mp he
      exact ⟨h1, by simpa using h2⟩
  have hfuel : stackWork [(root, outEdges E root)] + whiteWork E n (discover g { st₀ with dfsNode := [], back := [] } root).colour ≤
      E.length + n + 1 := by
    have h1 := whiteWork_enter E hr (colour' := (discover g { st₀ with dfsNode := [], back := [] } root).colour) hw
      (fun v => Function.update_apply _ _ _ _)
    have h2 := whiteWork_le E n st₀.colour
    simp only [stackWork, List.map_cons, List.map_nil, List.sum_cons, List.sum_nil]
    omega
  obtain ⟨st, h1, h2⟩ := search_ok hE h₀ _ _ _ hinit hfuel
  have hclosed : ∀ e ∈ E, e.src ∈ st.dfsNode → e.tgt ∈ st.dfsNode ∧ Known st.pred st.back e.src e.tgt := by
    intro e he hs
    rcases h2.seen _ hs e he rfl with ⟨es, h3, _⟩ | h3
    · simp at h3
    · exact h3
  have hcolour : ∀ v, st.colour v = if v ∈ st.dfsNode then .black else st₀.colour v := by
    intro v
    split_ifs with hv
    · have h3 := ((h2.found v).mp hv).2
      have h4 : st.colour v ≠ .gray := fun e => by simpa using (h2.gray v).mp e
      cases hc : st.colour v with
      | white => exact absurd hc h3
      | gray => exact absurd hc h4
      | black => rfl
    · by_cases h3 : st₀.colour v = .white
      · rw [h3]
        by_contra h4
        exact hv ((h2.found v).mpr ⟨h3, h4⟩)
      · exact h2.old v h3
  refine ⟨st, h1, ⟨fun v => ⟨fun hv => ?_, fun hv => ?_⟩, hcolour, h2.nodup, h2.order, h2.predRoot, h2.untouched, h2.tree, h2.rootShift, h2.group,
    h2.back, fun x y hx hs => ?_⟩, ⟨fun v => ?_, fun e he hs => ?_, fun v hv => ?_⟩⟩
  · have main : ∀ k v, v ∈ st.dfsNode → st.dfsNode.idxOf v ≤ k → Relation.ReflTransGen (Step E) root v := by
      intro k
      induction k with
      | zero =>
        intro v hv hk
        obtain ⟨p, q, hs⟩ := List.append_of_mem hv
        rcases h2.order p v q hs with ⟨rfl, _⟩ | ⟨_, h3⟩
        · exact Relation.ReflTransGen.refl
        · exfalso
          have hvp : v ∉ p := fun e => (List.nodup_append.mp (hs ▸ h2.nodup)).2.2 v e v (by simp) rfl
          rw [hs, List.idxOf_append_of_notMem hvp, List.idxOf_cons_self] at hk
          have := List.length_pos_of_mem h3
          omega
      | succ k ih =>
        intro v hv hk
        obtain ⟨p, q, hs⟩ := List.append_of_mem hv
        rcases h2.order p v q hs with ⟨rfl, _⟩ | ⟨hvr, h3⟩
        · exact Relation.ReflTransGen.refl
        · have hvp : v ∉ p := fun e => (List.nodup_append.mp (hs ▸ h2.nodup)).2.2 v e v (by simp) rfl
          have hlt : st.dfsNode.idxOf (st.pred v) < st.dfsNode.idxOf v := by
            rw [hs, List.idxOf_append_of_notMem hvp, List.idxOf_cons_self, List.idxOf_append_of_mem h3]
            have := List.idxOf_lt_length_of_mem h3
            omega
          obtain ⟨e, he, h4, h5, _⟩ := h2.tree v hv hvr
          exact (ih (st.pred v) (h2.pred_mem hv) (by omega)).tail ⟨e, he, h4, h5⟩
    exact main _ v hv (Nat.le_refl _)
  · induction hv with
    | refl => exact h2.rootIn
    | tail _ hs ih =>
      obtain ⟨e, he, rfl, rfl⟩ := hs
      exact (hclosed e he ih).1
  · obtain ⟨e, he, rfl, rfl⟩ := hs
    exact (hclosed e he hx).2
  · rw [hcolour]
    split_ifs
    · simp
    · exact h₀.noGray v
  · rw [hcolour] at hs ⊢
    by_cases h3 : e.src ∈ st.dfsNode
    · rw [if_pos (hclosed e he h3).1]
    · rw [if_neg h3] at hs
      split_ifs
      · rfl
      · exact h₀.closed e he hs
  · rw [hcolour] at hv
    split_ifs at hv with h3
    rw [(h2.untouched v h3).1]
    exact h₀.predSelf v hv

end PGM.Topology
