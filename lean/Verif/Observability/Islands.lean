import Verif.Observability.Props
import Verif.Topology.Props

/-!
# Observability of the islands that the topology finds (C40)

The numbering that `Radial` asks for is the one that the topology gives to the islands that it reports as radial.
-/

namespace PGM.Observability

open PGM.Topology

variable {A : Type} [AddGroup A]

/-- **C12/C40: in an island that is reported as radial every bus but the last is connected to exactly one bus with a higher number.** -/
theorem island_radial {G : Grid A} (h : G.Valid) {s : State A} {c : Coupled} (hb : Topology.build G = some (s, c)) {g : Nat} {I : Island A}
    (hI : s.islands[g]? = some I) (hr : I.radial = true) (shunts : Nat → List Nat) : Radial (islandTopo s c shunts g I) := by
  obtain ⟨hs, hc⟩ := build_inv h hb
  obtain ⟨root, order, _, h3⟩ := hs.islands g I hI
  have hlen := island_buses hI h3
  intro r hlt
  have hlt : r + 1 < order.length := by rw [← hlen]; exact hlt
  have hnd := h3.ordered.nodup
  have hidx : ∀ (k : Nat) (hk : k < order.length), order.idxOf order[k] = k := fun k hk => hnd.idxOf_getElem k hk
  have hx : order[r] ∈ order := List.getElem_mem _
  have hnx := node_of_order h3 hx
  rw [hidx r (by omega)] at hnx
  obtain ⟨p, k1, k2, k3⟩ := h3.higher hr _ hx (by rw [hidx]; exact hlt)
  rw [hidx] at k2
  have hp : p ∈ order := (h3.reach p).mpr (((h3.reach _).mp hx).tail k1)
  have hnp := node_of_order h3 hp
  refine ⟨order.idxOf p, k2, linked_branch h hb hnx hnp ((step_iff_linked h _ _).mp k1).2, fun c' hc' ⟨b, hbm, hcon⟩ => ?_⟩
  have hv : c' < order.length := by
    rw [← hlen]
    obtain ⟨x, y, e1, e2, _⟩ := branch_ends h hb hbm
    obtain ⟨hnum, _⟩ := numbering h hb
    rcases hcon with e | e <;> rw [e] at e1 e2
    · exact (hnum _ _ _ (e2 c' rfl)).2.2
    · exact (hnum _ _ _ (e1 c' rfl)).2.2
  have hy : order[c'] ∈ order := List.getElem_mem _
  have hny := node_of_order h3 hy
  rw [hidx c' hv] at hny
  have hl := (inY_iff h hb (I := I) shunts hnx hny).mp (Or.inr ⟨b, hbm, hcon⟩)
  have hne : order[r] ≠ order[c'] := by
    intro e
    have := congrArg order.idxOf e
    rw [hidx, hidx] at this
    omega
  have := k3 order[c'] ((step_iff_linked h _ _).mpr ⟨hne, hl.resolve_left hne⟩) (by rw [hidx, hidx]; exact hc')
  rw [← this, hidx]

/-- **C40 for the islands of a grid**: an island that the topology reports as radial is accepted exactly if its flow measurements determine
the differences between all voltages, whatever the admittances; there is a voltage measurement, at most one voltage phasor, and one if a
current sensor has a global angle. -/
theorem radial_island_accepts {K : Type} [Field K] {G : Grid A} (h : G.Valid) {s : State A} {c : Coupled} (hb : Topology.build G = some (s, c))
    {g : Nat} {I : Island A} (hI : s.islands[g]? = some I) (hr : I.radial = true) (shunts : Nat → List Nat)
    (hsh : ∀ p ∈ shunts g, p < buses s g) (M : Meas)
    (hP : ∀ a b, a < buses s g → b < buses s g → HasPhasor M a → HasPhasor M b → a = b)
    (y : Nat → K) (hy : Proper (islandTopo s c shunts g I) y) :
    ∃ S, YBus.build (islandTopo s c shunts g I) = some S ∧
      ((∃ ill, check (islandTopo s c shunts g I) I.radial S M = .returns true ill) ↔
        (∃ v, v < buses s g ∧ M.voltage v = true) ∧ (M.globalAngleCurrent = true → ∃ v, v < buses s g ∧ HasPhasor M v) ∧
          Determined (islandTopo s c shunts g I) M y) ∧
      ((∃ r, check (islandTopo s c shunts g I) I.radial S M = .throws r) ↔
        ¬∃ ill, check (islandTopo s c shunts g I) I.radial S M = .returns true ill) := by
  have hv := island_valid h hb hI shunts hsh
  have hrad := island_radial h hb hI hr shunts
  obtain ⟨S, hS, _⟩ := YBus.structure_correct hv
  refine ⟨S, hS, ?_⟩
  rw [hr]
  have excl : ∀ {r ill}, check (islandTopo s c shunts g I) true S M = .throws r →
      check (islandTopo s c shunts g I) true S M ≠ .returns true ill := fun h1 h2 => by rw [h1] at h2; cases h2
  by_cases hV : ∃ v, v < buses s g ∧ M.voltage v = true
  · by_cases hG : M.globalAngleCurrent = true → ∃ v, v < buses s g ∧ HasPhasor M v
    · obtain ⟨k1, k2⟩ := radial_accepts hv hS hrad M hV hP hG y hy
      by_cases hD : Determined (islandTopo s c shunts g I) M y
      · obtain ⟨ill, hi⟩ := k1 hD
        exact ⟨⟨fun _ => ⟨hV, hG, hD⟩, fun _ => ⟨ill, hi⟩⟩, ⟨fun ⟨r, hr⟩ => absurd hi (excl hr), fun hn => absurd ⟨ill, hi⟩ hn⟩⟩
      · obtain ⟨r, hr⟩ := k2 hD
        exact ⟨⟨fun ⟨ill, hi⟩ => absurd hi (excl hr), fun hx => absurd hx.2.2 hD⟩, ⟨fun _ ⟨ill, hi⟩ => absurd hi (excl hr), fun _ => ⟨r, hr⟩⟩⟩
    · push Not at hG
      obtain ⟨r, hr⟩ := no_reference_throws (islandTopo s c shunts g I) true S M hG.1 (fun v hv' => hG.2 v hv')
      exact ⟨⟨fun ⟨ill, hi⟩ => absurd hi (excl hr), fun hx => absurd (hx.2.1 hG.1) (fun ⟨v, v1, v2⟩ => hG.2 v v1 v2)⟩,
        ⟨fun _ ⟨ill, hi⟩ => absurd hi (excl hr), fun _ => ⟨r, hr⟩⟩⟩
  · have hr := no_voltage_throws (islandTopo s c shunts g I) true S M (fun v hv' hm => hV ⟨v, hv', hm⟩)
    exact ⟨⟨fun ⟨ill, hi⟩ => absurd hi (excl hr), fun hx => absurd hx.1 hV⟩,
      ⟨fun _ ⟨ill, hi⟩ => absurd hi (excl hr), fun _ => ⟨_, hr⟩⟩⟩

/-- A source at node 2, lines from 2 to 0 and from 0 to 3, two parallel lines between 2 and 1. -/
def exGrid : Grid Int where
  nNode := 4
  branches := [⟨2, 0, true, true, 0⟩, ⟨1, 2, true, true, 0⟩, ⟨2, 1, true, true, 0⟩, ⟨0, 3, true, true, 0⟩]
  branch3s := []
  sources := [(2, true)]

/-- It is one radial island. -/
example : ((Topology.build exGrid).map fun r => (r.1.islands.map (·.radial), buses r.1 0, r.2.branchBus 0)) =
    some ([true], 4, [(some 3, some 2), (some 0, some 3), (some 3, some 0), (some 2, some 1)]) := by decide +kernel

end PGM.Observability
