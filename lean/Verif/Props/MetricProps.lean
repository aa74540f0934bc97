import Verif.Proofs.Smooth2

/-!
# smooth_base.py: the leaf distances as metrics (C103)
-/

namespace SmoothRF
open Topo SkTree

/-- C103: the standard leaf distance is not negative, zero only between a leaf and itself, and satisfies
the triangle inequality. -/
theorem C103_standard_triangle (t : Topo) (h : t.WF) (i j k : Fin t.nLeaves) :
    0 ≤ t.distDepth .standard i j ∧ (t.distDepth .standard i j = 0 ↔ i = j) ∧
    t.distDepth .standard i k ≤ t.distDepth .standard i j + t.distDepth .standard j k := by
  refine ⟨distDepth_nonneg h _ i j, distDepth_eq_zero h _ i j, ?_⟩
  obtain ⟨a, ha⟩ := exists_lca h (t.leafNode i) (t.leafNode j)
  obtain ⟨b, hb⟩ := exists_lca h (t.leafNode j) (t.leafNode k)
  obtain ⟨c, hc⟩ := exists_lca h (t.leafNode i) (t.leafNode k)
  show t.distStandard i k ≤ t.distStandard i j + t.distStandard j k
  rw [distStandard_eq h i k hc, distStandard_eq h i j ha, distStandard_eq h j k hb]
  have h1 := anc_depth_le h ha.2.1
  have h2 := anc_depth_le h hb.1
  rcases anc_chain h ha.2.1 hb.1 with hab | hba
  · have := anc_depth_le h (hc.2.2 a ha.1 (hab.trans hb.2.1))
    omega
  · have := anc_depth_le h (hc.2.2 b (hba.trans ha.1) hb.2.1)
    omega

/-- C103: the `max` style is a metric on the leaves. -/
theorem C103_max_metric (t : Topo) (h : t.WF) (i j k : Fin t.nLeaves) :
    0 ≤ t.distDepth .max i j ∧ (t.distDepth .max i j = 0 ↔ i = j) ∧
    t.distDepth .max i j = t.distDepth .max j i ∧
    t.distDepth .max i k ≤ t.distDepth .max i j + t.distDepth .max j k := by
  refine ⟨distDepth_nonneg h _ i j, distDepth_eq_zero h _ i j, max_comm _ _, ?_⟩
  have h1 := (C103_standard_triangle t h i j k).2.2
  have h2 := (C103_standard_triangle t h k j i).2.2
  refine max_le (h1.trans (add_le_add (le_max_left _ _) (le_max_left _ _))) (h2.trans ?_)
  rw [add_comm]
  exact add_le_add (le_max_right _ _) (le_max_right _ _)

/-- C103: the `max` distance of two leaves is the depth of the deeper leaf below their last common node. -/
theorem C103_max_value (t : Topo) (h : t.WF) (i j : Fin t.nLeaves) (a : t.Node)
    (ha : t.IsLCA (t.leafNode i) (t.leafNode j) a) {di dj da : ℕ} (hi : t.DepthIs (t.leafNode i) di)
    (hj : t.DepthIs (t.leafNode j) dj) (hda : t.DepthIs a da) :
    t.distDepth .max i j = max (di : ℤ) dj - da := by
  rw [depthIs_iff h] at hi hj hda
  have e : t.distDepth .max i j = max (t.distStandard i j) (t.distStandard j i) := rfl
  rw [e, distStandard_eq h i j ha, distStandard_eq h j i ⟨ha.2.1, ha.1, fun b h1 h2 => ha.2.2 b h2 h1⟩,
    hi, hj, hda]
  omega

/-- A tree with a leaf at depth 1 beside two leaves at depth 4 that split at depth 1. -/
abbrev exMinTopo : Topo :=
  { m := 12
    left := ![some 1, none, some 3, some 4, none, some 6, none, none, some 9, none, some 11, none, none]
    right := ![some 2, none, some 8, some 5, none, some 7, none, none, some 10, none, some 12, none, none] }

/-- C103: the `min` style is symmetric and separates leaves, but it is not a metric: in `exMinTopo` going
through the shallow leaf is shorter than going directly. -/
theorem C103_min_not_metric : (∀ (t : Topo), t.WF → ∀ i j : Fin t.nLeaves,
      t.distDepth .min i j = t.distDepth .min j i ∧ (t.distDepth .min i j = 0 ↔ i = j)) ∧
    exMinTopo.WF ∧ ∃ i j k : Fin exMinTopo.nLeaves,
      exMinTopo.distDepth .min i j + exMinTopo.distDepth .min j k < exMinTopo.distDepth .min i k := by
  refine ⟨fun t h i j => ⟨min_comm _ _, distDepth_eq_zero h _ i j⟩, by decide, ?_⟩
  exact ⟨⟨2, by decide⟩, ⟨0, by decide⟩, ⟨5, by decide⟩, by decide +kernel⟩

/-- The values behind it: 1 + 1 < 3, while the `max` style gives 4 + 4 and 3. -/
example : exMinTopo.nLeaves = 7 ∧ exMinTopo.distDepth .min ⟨2, by decide⟩ ⟨0, by decide⟩ = 1 ∧
    exMinTopo.distDepth .min ⟨0, by decide⟩ ⟨5, by decide⟩ = 1 ∧
    exMinTopo.distDepth .min ⟨2, by decide⟩ ⟨5, by decide⟩ = 3 ∧
    exMinTopo.distDepth .max ⟨2, by decide⟩ ⟨0, by decide⟩ = 4 ∧
    exMinTopo.distDepth .max ⟨2, by decide⟩ ⟨5, by decide⟩ = 3 := by decide +kernel

end SmoothRF
