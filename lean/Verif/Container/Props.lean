import Verif.Container.Model
import Verif.Index.Lemmas3

/-!
# Properties C04 and C05: the component registry and the sequence numbers

Specification: a registry is a finite map from ID to (type number, value); see `Reg` below.
-/

namespace PGM.Container

variable {α τ : Type}

/-! ## Specification -/

/-- The abstract registry: which component was inserted under an ID, and its type. -/
abbrev Reg (α : Type) := Int → Option (Nat × α)

/-- Abstract insertion. -/
def Reg.insert (r : Reg α) (op : Op α) : Except Err (Reg α) :=
  match r op.id, op.ctor with
  | some _, _ => .error (.conflictID op.id)
  | none, .error e => .error (.ctor e)
  | none, .ok x => .ok (fun i => if i = op.id then some (op.group, x) else r i)

/-- Abstract insertion of a list, stopping at the first error. -/
def Reg.insertAll (r : Reg α) : List (Op α) → Except Err (Reg α)
  | [] => .ok r
  | op :: ops => do
    let r' ← r.insert op
    r'.insertAll ops

/-- Abstract typed look-up. -/
def Reg.lookup (isBase : τ → Nat → Bool) (t : τ) (r : Reg α) (id : Int) : Except Err α :=
  match r id with
  | none => .error (.idNotFound id)
  | some (g, x) => if isBase t g then .ok x else .error (.idWrongType id)

/-- Concrete and abstract state correspond. -/
structure Refines (k : Nat) (c : Container α) (r : Reg α) : Prop where
  len : c.vectors.length = k
  none_iff : ∀ id, c.map id = none ↔ r id = none
  some_val : ∀ id idx, c.map id = some idx →
    ∃ vec x, c.vectors[idx.group]? = some vec ∧ vec[idx.pos]? = some x ∧ r id = some (idx.group, x)

theorem refines_empty (k : Nat) : Refines k (empty k : Container α) (fun _ => none) := by
  refine ⟨by simp [empty], by simp [empty], ?_⟩
  intro id idx h
  simp [empty] at h

theorem emplace_refines (k : Nat) (c : Container α) (r : Reg α) (h : Refines k c r) (op : Op α)
    (hg : op.group < k) :
    match emplace c op.id op.group op.ctor, r.insert op with
    | .ok c', .ok r' => Refines k c' r'
    | .error e, .error e' => e = e'
    | _, _ => False := by
  unfold emplace Reg.insert
  cases hm : c.map op.id with
  | some idx =>
    obtain ⟨vec, x, _, _, hr⟩ := h.some_val op.id idx hm
    simp [hr]
  | none =>
    have hr : r op.id = none := (h.none_iff op.id).mp hm
    have hlt : op.group < c.vectors.length := by rw [h.len]; exact hg
    have hv : c.vectors[op.group]? = some c.vectors[op.group] := List.getElem?_eq_getElem hlt
    cases hc : op.ctor with
    | error e => simp [hr, hv]
    | ok x =>
      simp only [hr, hv]
      refine ⟨by simpa using h.len, ?_, ?_⟩
      · intro i
        by_cases hi : i = op.id
        · simp [hi]
        · simpa [hi] using h.none_iff i
      · intro i idx hidx
        by_cases hi : i = op.id
        · simp only [hi, if_true, Option.some.injEq] at hidx
          subst hidx
          refine ⟨c.vectors[op.group]'(by rw [h.len]; exact hg) ++ [x], x, ?_, by simp, by simp [hi]⟩
          simp [h.len, hg]
        · simp only [hi, if_false] at hidx
          obtain ⟨vec, y, h1, h2, h3⟩ := h.some_val i idx hidx
          by_cases hgr : op.group = idx.group
          · have hvec : vec = c.vectors[op.group]'(by rw [h.len]; exact hg) := by
              rw [← hgr] at h1; rw [hv] at h1; exact (Option.some.inj h1).symm
            have hpos : idx.pos < vec.length := by
              rcases Nat.lt_or_ge idx.pos vec.length with hlt | hge
              · exact hlt
              · rw [List.getElem?_eq_none hge] at h2; cases h2
            refine ⟨vec ++ [x], y, ?_, ?_, by simpa [hi] using h3⟩
            · rw [List.getElem?_set, if_pos hgr, h.len, if_pos hg, hvec]
            · rw [List.getElem?_append_left hpos]; exact h2
          · refine ⟨vec, y, ?_, h2, by simpa [hi] using h3⟩
            rw [List.getElem?_set, if_neg hgr]; exact h1

theorem emplaceAll_refines (k : Nat) (ops : List (Op α)) (hg : ∀ op ∈ ops, op.group < k) (c : Container α)
    (r : Reg α) (h : Refines k c r) :
    match emplaceAll c ops, r.insertAll ops with
    | .ok c', .ok r' => Refines k c' r'
    | .error e, .error e' => e = e'
    | _, _ => False := by
  induction ops generalizing c r with
  | nil => simpa [emplaceAll, Reg.insertAll] using h
  | cons op ops ih =>
    have h1 := emplace_refines k c r h op (hg op (by simp))
    unfold emplaceAll Reg.insertAll
    cases hc : emplace c op.id op.group op.ctor with
    | error e =>
      cases hr : r.insert op with
      | error e' => rw [hc, hr] at h1; simpa [bind, Except.bind] using h1
      | ok r' => rw [hc, hr] at h1; exact h1.elim
    | ok c' =>
      cases hr : r.insert op with
      | error e' => rw [hc, hr] at h1; exact h1.elim
      | ok r' =>
        rw [hc, hr] at h1
        simp only [bind, Except.bind]
        exact ih (fun op hop => hg op (by simp [hop])) c' r' h1

theorem getItemById_refines (isBase : τ → Nat → Bool) (t : τ) (k : Nat) (c : Container α) (r : Reg α)
    (h : Refines k c r) (id : Int) : getItemById isBase t c id = r.lookup isBase t id := by
  unfold getItemById getIdxByIdTyped getIdxById Reg.lookup
  cases hm : c.map id with
  | none =>
    have hr : r id = none := (h.none_iff id).mp hm
    simp [hr, bind, Except.bind]
  | some idx =>
    obtain ⟨vec, x, h1, h2, h3⟩ := h.some_val id idx hm
    rw [h3]
    simp only [bind, Except.bind]
    cases hb : isBase t idx.group with
    | false => simp
    | true => simp [getItem, hb, h1, h2, pure, Except.pure]

/-! ## C04 -/

/-- C04. Building a container from any list of insertions gives exactly the outcome of the abstract registry: the
same error (for a repeated ID or a failing constructor), or a container in which every typed look-up of every ID
returns what the registry returns: the inserted component, "not found", or "wrong type". -/
theorem registry_refinement (isBase : τ → Nat → Bool) (k : Nat) (ops : List (Op α))
    (hg : ∀ op ∈ ops, op.group < k) :
    (∃ c r, emplaceAll (empty k) ops = .ok c ∧ Reg.insertAll (fun _ => none) ops = .ok r ∧
        ∀ t id, getItemById isBase t c id = r.lookup isBase t id) ∨
      (∃ e, emplaceAll (empty k) ops = .error e ∧ Reg.insertAll (fun _ => none) ops = .error e) := by
  have h := emplaceAll_refines k ops hg (empty k) (fun _ => none) (refines_empty k)
  cases hc : emplaceAll (empty k) ops with
  | error e =>
    cases hr : Reg.insertAll (fun _ => none) ops with
    | error e' => rw [hc, hr] at h; exact .inr ⟨e, rfl, by rw [h]⟩
    | ok r => rw [hc, hr] at h; exact h.elim
  | ok c =>
    cases hr : Reg.insertAll (fun _ => none) ops with
    | error e' => rw [hc, hr] at h; exact h.elim
    | ok r =>
      rw [hc, hr] at h
      exact .inl ⟨c, r, rfl, rfl, fun t id => getItemById_refines isBase t k c r h id⟩

theorem insertAll_preserves (ops : List (Op α)) (r r' : Reg α) (h : r.insertAll ops = .ok r') (id : Int) :
    (∀ v, r id = some v → r' id = some v) ∧
    (∀ v, r' id = some v → r id = some v ∨ ∃ op ∈ ops, op.id = id ∧ op.group = v.1 ∧ op.ctor = .ok v.2) := by
  induction ops generalizing r with
  | nil =>
    simp only [Reg.insertAll, Except.ok.injEq] at h
    subst h
    exact ⟨fun v hv => hv, fun v hv => .inl hv⟩
  | cons op ops ih =>
    unfold Reg.insertAll at h
    cases hi : r.insert op with
    | error e => rw [hi] at h; cases h
    | ok r1 =>
      rw [hi] at h
      simp only [bind, Except.bind] at h
      have ih' := ih r1 h
      unfold Reg.insert at hi
      cases hr : r op.id with
      | some _ => rw [hr] at hi; cases hi
      | none =>
        cases hc : op.ctor with
        | error _ => rw [hr, hc] at hi; cases hi
        | ok x =>
          rw [hr, hc] at hi
          simp only [Except.ok.injEq] at hi
          subst hi
          constructor
          · intro v hv
            apply ih'.1
            by_cases hid : id = op.id
            · subst hid; rw [hr] at hv; cases hv
            · simpa [hid] using hv
          · intro v hv
            rcases ih'.2 v hv with h1 | ⟨o, ho, h2⟩
            · by_cases hid : id = op.id
              · simp only [hid, if_true, Option.some.injEq] at h1
                subst h1
                exact .inr ⟨op, by simp, hid.symm, rfl, hc⟩
              · simp only [hid, if_false] at h1
                exact .inl h1
            · exact .inr ⟨o, by simp [ho], h2⟩

/-- C04. In words of the insertions: if all insertions were accepted, the IDs are pairwise different, each ID
resolves to exactly the component inserted under it (for each type it has), and no other ID resolves. -/
theorem accepted_components_resolve (isBase : τ → Nat → Bool) (k : Nat) (ops : List (Op α))
    (hg : ∀ op ∈ ops, op.group < k) (c : Container α) (hok : emplaceAll (empty k) ops = .ok c) :
    (ops.map Op.id).Nodup ∧
    (∀ op ∈ ops, ∃ x, op.ctor = .ok x ∧ ∀ t, getItemById isBase t c op.id =
      if isBase t op.group then .ok x else .error (.idWrongType op.id)) ∧
    (∀ id, id ∉ ops.map Op.id → ∀ t, getItemById isBase t c id = .error (.idNotFound id)) := by
  rcases (registry_refinement isBase k ops hg).symm with ⟨e, h1, _⟩ | ⟨c', r, h1, h2, h3⟩
  · rw [hok] at h1; cases h1
  rw [hok] at h1
  cases h1
  have key : ∀ (ops : List (Op α)) (r0 r : Reg α), r0.insertAll ops = .ok r →
      (ops.map Op.id).Nodup ∧ (∀ op ∈ ops, r0 op.id = none) ∧
      ∀ op ∈ ops, ∃ x, op.ctor = .ok x ∧ r op.id = some (op.group, x) := by
    intro ops
    induction ops with
    | nil => intro r0 r _; simp
    | cons op ops ih =>
      intro r0 r h
      unfold Reg.insertAll at h
      cases hi : r0.insert op with
      | error e => rw [hi] at h; cases h
      | ok r1 =>
        rw [hi] at h
        simp only [bind, Except.bind] at h
        obtain ⟨ih1, ih2, ih3⟩ := ih r1 r h
        have hpres := insertAll_preserves ops r1 r h op.id
        unfold Reg.insert at hi
        cases hr : r0 op.id with
        | some _ => rw [hr] at hi; cases hi
        | none =>
          cases hc : op.ctor with
          | error _ => rw [hr, hc] at hi; cases hi
          | ok x =>
            rw [hr, hc] at hi
            simp only [Except.ok.injEq] at hi
            subst hi
            have hnot : ∀ o ∈ ops, o.id ≠ op.id := by
              intro o ho heq
              have := ih2 o ho
              simp [heq] at this
            refine ⟨?_, ?_, ?_⟩
            · rw [List.map_cons, List.nodup_cons]
              refine ⟨?_, ih1⟩
              intro hm
              obtain ⟨o, ho, heq⟩ := List.mem_map.mp hm
              exact hnot o ho heq
            · intro o ho
              rcases List.mem_cons.mp ho with rfl | ho
              · exact hr
              · have := ih2 o ho
                simpa [hnot o ho] using this
            · intro o ho
              rcases List.mem_cons.mp ho with rfl | ho
              · exact ⟨x, hc, hpres.1 _ (by simp)⟩
              · exact ih3 o ho
  obtain ⟨k1, _, k3⟩ := key ops _ r h2
  refine ⟨k1, ?_, ?_⟩
  · intro op hop
    obtain ⟨x, hx, hr⟩ := k3 op hop
    refine ⟨x, hx, fun t => ?_⟩
    rw [h3 t op.id, Reg.lookup, hr]
  · intro id hid t
    rw [h3 t id, Reg.lookup]
    have := (insertAll_preserves ops _ r h2 id).2
    cases hr : r id with
    | none => rfl
    | some v =>
      rcases this v hr with h0 | ⟨o, ho, h4, _⟩
      · cases h0
      · exact absurd (List.mem_map.mpr ⟨o, ho, h4⟩) hid

/-- C04. An insertion with an ID that is already taken is refused with that ID, and (since the operation is pure)
leaves the container as it was. -/
theorem duplicate_rejected (c : Container α) (id : Int) (g : Nat) (ctor : Except String α) (idx : Idx2D)
    (h : c.map id = some idx) : emplace c id g ctor = .error (.conflictID id) := by
  simp [emplace, h]

/-- Non-vacuity: three types, base type 0 covers types 0 and 2, base type 1 covers type 1. -/
example :
    let isBase : Nat → Nat → Bool := fun t g => if t = 0 then g == 0 || g == 2 else g == 1
    let ops : List (Op Nat) := [⟨7, 0, .ok 70⟩, ⟨-3, 2, .ok 30⟩, ⟨5, 1, .ok 50⟩]
    ∃ c, emplaceAll (empty 3) ops = .ok c ∧ getItemById isBase 0 c (-3) = .ok 30 ∧
      getItemById isBase 1 c (-3) = .error (.idWrongType (-3)) ∧
      getItemById isBase 1 c 99 = .error (.idNotFound 99) ∧
      emplace c 7 1 (.ok 71) = .error (.conflictID 7) := by
  exact ⟨_, rfl, rfl, rfl, rfl, rfl⟩

/-! ## C05 -/

/-- Number of components of type number `g` that count for base type `t`. -/
def cnt (isBase : τ → Nat → Bool) (t : τ) (c : Container α) (g : Nat) : Nat :=
  if isBase t g then (c.vectors.getD g []).length else 0

theorem sizePerVector_tab (isBase : τ → Nat → Bool) (t : τ) (c : Container α) :
    sizePerVector isBase t c = tab c.vectors.length (cnt isBase t c) := by
  apply eq_tab_of_getElem?
  · simp [sizePerVector]
  · intro i hi
    simp [sizePerVector, cnt, List.getD_eq_getElem?_getD, hi]

theorem cumSize_tab (isBase : τ → Nat → Bool) (t : τ) (c : Container α) :
    cumSize isBase t c = tab (c.vectors.length + 1) (psum (cnt isBase t c)) := by
  unfold cumSize
  rw [sizePerVector_tab, Index.inclusiveScan_tab, tab_succ]
  simp [psum]

theorem size_eq (isBase : τ → Nat → Bool) (t : τ) (c : Container α) :
    size isBase t c = psum (cnt isBase t c) c.vectors.length := by
  unfold size
  rw [sizePerVector_tab]
  have : ∀ n f, (tab n f).foldl (· + ·) 0 = psum f n := by
    intro n f
    induction n with
    | zero => rfl
    | succ n ih => rw [tab_succ', List.foldl_append, ih]; rfl
  exact this _ _

/-- The index is that of an existing component that derives from base type `t`. -/
def ValidIdx (isBase : τ → Nat → Bool) (t : τ) (c : Container α) (idx : Idx2D) : Prop :=
  isBase t idx.group = true ∧ ∃ vec, c.vectors[idx.group]? = some vec ∧ idx.pos < vec.length

theorem cumSize_sorted (isBase : τ → Nat → Bool) (t : τ) (c : Container α) :
    (cumSize isBase t c).Pairwise (· ≤ ·) := by
  rw [cumSize_tab, List.pairwise_iff_getElem]
  intro i j hi hj hij
  simp only [tab_getElem]
  exact psum_mono _ (by omega)

theorem upperBound_cum (f : Nat → Nat) (k g seq : Nat) (hg : g < k) (h1 : psum f g ≤ seq)
    (h2 : seq < psum f (g + 1)) : Index.upperBound (tab (k + 1) (psum f)) seq = g + 1 := by
  have hs : (tab (k + 1) (psum f)).Pairwise (· ≤ ·) := by
    rw [List.pairwise_iff_getElem]
    intro i j hi hj hij
    simp only [tab_getElem]
    exact psum_mono _ (by omega)
  rw [Index.upperBound_sorted _ hs]
  unfold tab
  rw [List.countP_map]
  have : (List.range (k + 1)).countP ((fun x => decide (x ≤ seq)) ∘ psum f) =
      (List.range (k + 1)).countP (fun i => decide (i < g + 1)) := by
    apply List.countP_congr
    intro i _
    simp only [Function.comp_apply, decide_eq_true_eq]
    constructor
    · intro hle
      apply Classical.byContradiction
      intro hn
      have := psum_mono f (a := g + 1) (b := i) (by omega)
      omega
    · intro hlt
      have := psum_mono f (a := i) (b := g) (by omega)
      omega
  rw [this]
  have gen : ∀ m n, n ≤ m → (List.range m).countP (fun i => decide (i < n)) = n := by
    intro m n hn
    induction m with
    | zero => simp; omega
    | succ m ih =>
      rw [List.range_succ, List.countP_append]
      by_cases h : n ≤ m
      · rw [ih h]; simp; omega
      · have : n = m + 1 := by omega
        subst this
        have : (List.range m).countP (fun i => decide (i < m + 1)) = m := by
          conv => rhs; rw [← List.length_range (n := m)]
          rw [List.countP_eq_length]
          intro a ha; have := List.mem_range.mp ha; simp; omega
        rw [this]; simp
  exact gen _ _ (by omega)

/-- C05. Every component of type `t` has a sequence number below the number of components of that type, and
looking the number up returns the same component. -/
theorem seq_of_idx (isBase : τ → Nat → Bool) (t : τ) (c : Container α) (idx : Idx2D)
    (h : ValidIdx isBase t c idx) :
    ∃ s, getSeq isBase t c idx = some s ∧ s < size isBase t c ∧ getIdx2dBySeq isBase t c s = some idx := by
  obtain ⟨hb, vec, hv, hp⟩ := h
  have hk : idx.group < c.vectors.length := by
    rcases Nat.lt_or_ge idx.group c.vectors.length with hlt | hge
    · exact hlt
    · rw [List.getElem?_eq_none hge] at hv; cases hv
  have hc : cnt isBase t c idx.group = vec.length := by
    simp [cnt, hb, List.getD_eq_getElem?_getD, hv]
  have hs : psum (cnt isBase t c) (idx.group + 1) = psum (cnt isBase t c) idx.group + vec.length := by
    simp only [psum, hc]
  have hle := psum_mono (cnt isBase t c) (a := idx.group + 1) (b := c.vectors.length) (by omega)
  refine ⟨psum (cnt isBase t c) idx.group + idx.pos, ?_, ?_, ?_⟩
  · have : idx.group < c.vectors.length + 1 := by omega
    simp [getSeq, cumSize_tab, this]
  · rw [size_eq]; omega
  · have hub := upperBound_cum (cnt isBase t c) c.vectors.length idx.group
      (psum (cnt isBase t c) idx.group + idx.pos) hk (by omega) (by omega)
    have h3 : idx.group < c.vectors.length + 1 := by omega
    simp [getIdx2dBySeq, cumSize_tab, hub, hk, h3]

/-- C05. Every sequence number below the size belongs to a component of type `t`, whose sequence number it is. -/
theorem idx_of_seq (isBase : τ → Nat → Bool) (t : τ) (c : Container α) (s : Nat) (h : s < size isBase t c) :
    ∃ idx, getIdx2dBySeq isBase t c s = some idx ∧ ValidIdx isBase t c idx ∧ getSeq isBase t c idx = some s := by
  rw [size_eq] at h
  obtain ⟨g, hg, h1, h2⟩ := psum_block_exists _ h
  have hub := upperBound_cum (cnt isBase t c) c.vectors.length g s hg h1 h2
  have h3 : g < c.vectors.length + 1 := by omega
  have hpos : 0 < cnt isBase t c g := by simp only [psum] at h2; omega
  have hb : isBase t g = true := by
    cases hbb : isBase t g with
    | true => rfl
    | false => simp [cnt, hbb] at hpos
  refine ⟨⟨g, s - psum (cnt isBase t c) g⟩, ?_, ⟨hb, c.vectors[g], by simp [hg], ?_⟩, ?_⟩
  · simp [getIdx2dBySeq, cumSize_tab, hub, hg, h3]
  · have hc : cnt isBase t c g = c.vectors[g].length := by
      simp [cnt, hb, List.getD_eq_getElem?_getD, hg]
    simp only [psum, hc] at h2
    simp only
    omega
  · simp [getSeq, cumSize_tab, h3]; omega

/-- C05. Sequence numbers of different components of a type are different. -/
theorem seq_injective (isBase : τ → Nat → Bool) (t : τ) (c : Container α) (i j : Idx2D) (s : Nat)
    (hi : ValidIdx isBase t c i) (hj : ValidIdx isBase t c j) (h1 : getSeq isBase t c i = some s)
    (h2 : getSeq isBase t c j = some s) : i = j := by
  obtain ⟨s1, a1, _, a3⟩ := seq_of_idx isBase t c i hi
  obtain ⟨s2, b1, _, b3⟩ := seq_of_idx isBase t c j hj
  rw [h1] at a1; rw [h2] at b1
  cases a1; cases b1
  rw [a3] at b3
  exact Option.some.inj b3

/-- C05. Iterating a type visits the components of its concrete types one concrete type after the other, each in
insertion order. -/
theorem iter_eq (isBase : τ → Nat → Bool) (t : τ) (c : Container α) :
    iter isBase t c =
      ((List.range c.vectors.length).flatMap (fun g => if isBase t g then c.vectors.getD g [] else [])).map .ok := by
  have hlen : (fun g => (if isBase t g then c.vectors.getD g [] else []).length) = cnt isBase t c := by
    funext g; unfold cnt; split <;> simp
  apply List.ext_getElem?
  intro s
  unfold iter
  rw [List.getElem?_map, List.getElem?_map]
  by_cases hs : s < size isBase t c
  · have hs' := hs
    rw [size_eq] at hs'
    obtain ⟨g, hg, h1, h2⟩ := psum_block_exists _ hs'
    have hub := upperBound_cum (cnt isBase t c) c.vectors.length g s hg h1 h2
    have h3 : g < c.vectors.length + 1 := by omega
    have hpos : 0 < cnt isBase t c g := by simp only [psum] at h2; omega
    have hb : isBase t g = true := by
      cases hbb : isBase t g with
      | true => rfl
      | false => simp [cnt, hbb] at hpos
    have hc : cnt isBase t c g = c.vectors[g].length := by
      simp [cnt, hb, List.getD_eq_getElem?_getD, hg]
    have hj : s - psum (cnt isBase t c) g < c.vectors[g].length := by
      simp only [psum, hc] at h2; omega
    have hblk := Index.flatMap_blocks_getElem? (fun g => if isBase t g then c.vectors.getD g [] else [])
      c.vectors.length g (s - psum (cnt isBase t c) g) hg (by
        simp [hb, List.getD_eq_getElem?_getD, hg]; omega)
    rw [hlen] at hblk
    have hadd : psum (cnt isBase t c) g + (s - psum (cnt isBase t c) g) = s := by omega
    rw [hadd] at hblk
    rw [hblk]
    have hget : getIdx2dBySeq isBase t c s = some ⟨g, s - psum (cnt isBase t c) g⟩ := by
      simp [getIdx2dBySeq, cumSize_tab, hub, hg, h3]
    simp [hs, getItemBySeq, hget, getItem, hb, hg, List.getD_eq_getElem?_getD, hj]
  · rw [List.getElem?_eq_none (by simp; omega)]
    rw [List.getElem?_eq_none (by rw [Index.flatMap_blocks_length, hlen, ← size_eq]; omega)]
    simp

theorem emplaceAll_vectors (k : Nat) (ops : List (Op α)) (hg : ∀ op ∈ ops, op.group < k) (c c' : Container α)
    (hl : c.vectors.length = k) (h : emplaceAll c ops = .ok c') (g : Nat) (hk : g < k) :
    (c'.vectors[g]?).map (fun v => v.map Except.ok) =
      (c.vectors[g]?).map (fun v => v.map Except.ok ++ (ops.filter (fun op => op.group == g)).map Op.ctor) := by
  induction ops generalizing c with
  | nil =>
    simp only [emplaceAll, Except.ok.injEq] at h
    subst h; simp
  | cons op ops ih =>
    unfold emplaceAll at h
    cases he : emplace c op.id op.group op.ctor with
    | error e => rw [he] at h; cases h
    | ok c1 =>
      rw [he] at h
      simp only [bind, Except.bind] at h
      have hgo : op.group < c.vectors.length := by rw [hl]; exact hg op (by simp)
      unfold emplace at he
      cases hm : c.map op.id with
      | some _ => rw [hm] at he; cases he
      | none =>
        cases hc : op.ctor with
        | error _ => rw [hm, hc] at he; simp [List.getElem?_eq_getElem hgo] at he
        | ok x =>
          rw [hm, hc, List.getElem?_eq_getElem hgo] at he
          simp only [Except.ok.injEq] at he
          subst he
          rw [ih (fun o ho => hg o (by simp [ho])) _ (by simpa using hl) h]
          have hgk : g < c.vectors.length := by omega
          simp only [List.getElem?_set]
          by_cases hgg : op.group = g
          · subst hgg
            simp [hgk, hc]
          · have : (op.group == g) = false := by simpa using hgg
            simp [hgg, hgk]

/-- C05, together with C04: after building a container from `ops`, iterating type `t` lists exactly the inserted
components whose type derives from `t`, grouped by concrete type and in insertion order within each. -/
theorem iter_lists_insertions (isBase : τ → Nat → Bool) (t : τ) (k : Nat) (ops : List (Op α))
    (hg : ∀ op ∈ ops, op.group < k) (c : Container α) (hok : emplaceAll (empty k) ops = .ok c) :
    (iter isBase t c).map (fun x => match x with | .ok v => (Except.ok v : Except String α) | .error _ => .error "") =
      (List.range k).flatMap (fun g => if isBase t g then (ops.filter (fun op => op.group == g)).map Op.ctor else []) := by
  have hlen : c.vectors.length = k := by
    have := emplaceAll_refines k ops hg (empty k) (fun _ => none) (refines_empty k)
    rw [hok] at this
    cases hr : Reg.insertAll (fun _ => none) ops with
    | error e => rw [hr] at this; exact this.elim
    | ok r => rw [hr] at this; exact this.len
  rw [iter_eq, List.map_map, List.map_flatMap, hlen]
  rw [List.flatMap_def, List.flatMap_def]
  congr 1
  apply List.map_congr_left
  intro g hgm
  have hgk := List.mem_range.mp hgm
  have hv := emplaceAll_vectors k ops hg (empty k) c (by simp [empty]) hok g hgk
  cases hb : isBase t g with
  | false => simp
  | true =>
    have hgc : g < c.vectors.length := by omega
    simp [empty, hgk, hgc] at hv
    simp only [if_true, List.getD_eq_getElem?_getD, List.getElem?_eq_getElem hgc, Option.getD_some]
    rw [← hv]
    apply List.map_congr_left
    intro a _
    rfl

theorem subClsPos_spec (isBase : τ → Nat → Bool) (sub : τ) (k : Nat) :
    subClsPos isBase sub k ≤ k ∧ (∀ g, g < subClsPos isBase sub k → isBase sub g = false) := by
  unfold subClsPos
  constructor
  · have := (List.takeWhile_sublist (fun g => !isBase sub g) (l := List.range k)).length_le
    simpa using this
  · intro g hg
    have hpre := List.takeWhile_prefix (fun g => !isBase sub g) (l := List.range k)
    have hmem : (List.takeWhile (fun g => !isBase sub g) (List.range k))[g] ∈
        List.takeWhile (fun g => !isBase sub g) (List.range k) := List.getElem_mem hg
    have hval : (List.takeWhile (fun g => !isBase sub g) (List.range k))[g] = g := by
      have := hpre.getElem hg
      rw [this]; simp
    have hall := List.all_eq_true.mp (List.all_takeWhile (p := fun g => !isBase sub g) (l := List.range k)) _ hmem
    rw [hval] at hall
    simpa using hall

/-- C05. The offset that locates a subtype inside its base type is right: if the types of `base` from the first
type of `sub` on up to the type of the component are exactly types of `sub`, then the number of a component within
`base` is the start offset plus its number within `sub`. -/
theorem start_idx_offset (isBase : τ → Nat → Bool) (base sub : τ) (c : Container α) (idx : Idx2D)
    (hv : ValidIdx isBase sub c idx)
    (hcontig : ∀ g, subClsPos isBase sub c.vectors.length ≤ g → g < idx.group → isBase base g = isBase sub g) :
    ∃ o s, getStartIdx isBase base sub c = some o ∧ getSeq isBase sub c idx = some s ∧
      getSeq isBase base c idx = some (o + s) := by
  obtain ⟨hb, vec, hvec, _⟩ := hv
  have hk : idx.group < c.vectors.length := by
    rcases Nat.lt_or_ge idx.group c.vectors.length with hlt | hge
    · exact hlt
    · rw [List.getElem?_eq_none hge] at hvec; cases hvec
  obtain ⟨hp1, hp2⟩ := subClsPos_spec isBase sub c.vectors.length
  generalize hpd : subClsPos isBase sub c.vectors.length = p at *
  have hpg : p ≤ idx.group := by
    apply Classical.byContradiction
    intro hn
    have := hp2 idx.group (by omega)
    rw [hb] at this; cases this
  have key : ∀ d, p + d ≤ idx.group →
      psum (cnt isBase base c) (p + d) = psum (cnt isBase base c) p + psum (cnt isBase sub c) (p + d) := by
    intro d
    induction d with
    | zero =>
      intro _
      have : psum (cnt isBase sub c) p = psum (fun _ => 0) p :=
        psum_congr (fun i hi => by simp [cnt, hp2 i hi])
      rw [Nat.add_zero, this, psum_zero]; rfl
    | succ d ih =>
      intro hd
      have h1 := ih (by omega)
      have h2 := hcontig (p + d) (by omega) (by omega)
      have h3 : cnt isBase base c (p + d) = cnt isBase sub c (p + d) := by simp [cnt, h2]
      rw [← Nat.add_assoc]
      simp only [psum, h1, h3]; omega
  have hkey := key (idx.group - p) (by omega)
  have hpe : p + (idx.group - p) = idx.group := by omega
  rw [hpe] at hkey
  refine ⟨psum (cnt isBase base c) p, psum (cnt isBase sub c) idx.group + idx.pos, ?_, ?_, ?_⟩
  · have : p < c.vectors.length + 1 := by omega
    simp [getStartIdx, cumSize_tab, hpd, this]
  · have : idx.group < c.vectors.length + 1 := by omega
    simp [getSeq, cumSize_tab, this]
  · have : idx.group < c.vectors.length + 1 := by omega
    simp [getSeq, cumSize_tab, this, hkey]; omega

/-- Non-vacuity: numbers of a base type that spans two concrete types with another type in between. -/
example :
    let isBase : Nat → Nat → Bool := fun t g => if t = 0 then g == 0 || g == 2 else g == 1
    let ops : List (Op Nat) := [⟨7, 0, .ok 70⟩, ⟨-3, 2, .ok 30⟩, ⟨5, 1, .ok 50⟩, ⟨8, 0, .ok 80⟩]
    ∃ c, emplaceAll (empty 3) ops = .ok c ∧ iter isBase 0 c = [.ok 70, .ok 80, .ok 30] ∧
      getSeq isBase 0 c ⟨2, 0⟩ = some 2 ∧ getIdx2dBySeq isBase 0 c 2 = some ⟨2, 0⟩ ∧ size isBase 0 c = 3 ∧
      getStartIdx isBase 0 1 c = some 2 := by
  exact ⟨_, rfl, rfl, rfl, rfl, rfl, rfl⟩

end PGM.Container
