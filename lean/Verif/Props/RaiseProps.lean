import Verif.Props.MarginProps
import Verif.Props.CountProps

/-! What smoothing does to the order of leaf values (C197). -/

set_option linter.unusedSectionVars false

namespace SmoothRF
open SkTree Topo

variable {K : Type} [Field K] [LinearOrder K] [IsStrictOrderedRing K] {C : ℕ}

/-- Distances seen from two sibling leaves: one to each other, and the same to every other leaf. -/
theorem twin_dist {t : Topo} (h : t.WF) {p : t.Node} {r q : Fin t.nLeaves} (hr : t.IsChild p (t.leafNode r))
    (hq : t.IsChild p (t.leafNode q)) (hne : r ≠ q) (s : Style) :
    t.distDepth s r q = 1 ∧ t.distDepth s q r = 1 ∧
      ∀ x, x ≠ r → x ≠ q → t.distDepth s r x = t.distDepth s q x := by
  have hd := depth_child h hr
  have hd' := depth_child h hq
  have leafAnc : ∀ (i : Fin t.nLeaves) (x : Fin t.nLeaves), t.Anc (t.leafNode i) (t.leafNode x) → i = x := by
    intro i x hix
    by_contra hx
    obtain ⟨c, hc, -⟩ := anc_top h hix (fun e => hx (t.leafNode_injective e))
    exact leafNode_isLeaf h i c hc
  have up : ∀ {i j : Fin t.nLeaves}, t.IsChild p (t.leafNode i) → t.IsChild p (t.leafNode j) →
      ∀ x, x ≠ i → x ≠ j → ∀ a, t.IsLCA (t.leafNode i) (t.leafNode x) a →
        t.IsLCA (t.leafNode j) (t.leafNode x) a := by
    intro i j hi hj x hxi hxj a ha
    have hap : t.Anc a p := by
      rcases (anc_child_iff h hi).1 ha.1 with e | e
      · exact absurd (leafAnc i x (e ▸ ha.2.1)).symm hxi
      · exact e
    refine ⟨.step hap hj, ha.2.1, fun b hb hbx => ?_⟩
    rcases (anc_child_iff h hj).1 hb with e | e
    · exact absurd (leafAnc j x (e ▸ hbx)).symm hxj
    · exact ha.2.2 b (.step e hi) hbx
  have hlca : t.IsLCA (t.leafNode r) (t.leafNode q) p := by
    refine ⟨.step (.refl _) hr, .step (.refl _) hq, fun b hb hb' => ?_⟩
    rcases (anc_child_iff h hr).1 hb with e | e
    · exact absurd (leafAnc r q (e ▸ hb')) hne
    · exact e
  have s1 : t.distStandard r q = 1 := by rw [distStandard_eq h r q hlca]; omega
  have s2 : t.distStandard q r = 1 := by rw [distStandard_eq h q r (isLCA_symm hlca)]; omega
  have s3 : ∀ x, x ≠ r → x ≠ q → t.distStandard r x = t.distStandard q x ∧
      t.distStandard x r = t.distStandard x q := by
    intro x hxr hxq
    obtain ⟨a, ha⟩ := exists_lca h (t.leafNode r) (t.leafNode x)
    have ha' := up hr hq x hxr hxq a ha
    rw [distStandard_eq h r x ha, distStandard_eq h q x ha', distStandard_eq h x r (isLCA_symm ha),
      distStandard_eq h x q (isLCA_symm ha')]
    omega
  have b8 := C08_distance_max_min t h
  have std : ∀ i j, t.distDepth .standard i j = t.distStandard i j := fun _ _ => rfl
  cases s
  · exact ⟨s1, s2, fun x h1 h2 => (s3 x h1 h2).1⟩
  · refine ⟨?_, ?_, fun x h1 h2 => ?_⟩
    · rw [(b8 r q).1, std, std, s1, s2]; rfl
    · rw [(b8 q r).1, std, std, s1, s2]; rfl
    · rw [(b8 r x).1, (b8 q x).1, std, std, std, std, (s3 x h1 h2).1, (s3 x h1 h2).2]
  · refine ⟨?_, ?_, fun x h1 h2 => ?_⟩
    · rw [(b8 r q).2.1, std, std, s1, s2]; rfl
    · rw [(b8 q r).2.1, std, std, s1, s2]; rfl
    · rw [(b8 r x).2.1, (b8 q x).2.1, std, std, std, std, (s3 x h1 h2).1, (s3 x h1 h2).2]

/-- The weight of a leaf at distance `l`: `lamb[l]`, or all weights from `l` on with `parents_all`. -/
def distWeight (pa : Bool) {n : ℕ} (lamb : Fin n → K) (l : ℕ) : K :=
  ∑ k : Fin n, if k.val = l ∨ (pa = true ∧ l < k.val) then lamb k else 0

/-- What a leaf's own weight exceeds its sibling's by: `lamb[0] - lamb[1]`, or `lamb[0]` with `parents_all`. -/
def levelGap (pa : Bool) {n : ℕ} (lamb : Fin n → K) : K :=
  ∑ k : Fin n, if k.val = 0 then lamb k else if pa = false ∧ k.val = 1 then - lamb k else 0

theorem distWeight_gap (pa : Bool) {n : ℕ} (lamb : Fin n → K) :
    distWeight pa lamb 0 - distWeight pa lamb 1 = levelGap pa lamb := by
  unfold distWeight levelGap
  rw [← Finset.sum_sub_distrib]
  refine Finset.sum_congr rfl fun k _ => ?_
  rcases k with ⟨k, hk⟩
  cases pa <;> rcases k with _ | _ | k <;> simp

theorem levelSum_distWeight (t : SkTree K C) (h : t.WF) (s : Style) (pa : Bool) {n : ℕ} (lamb : Fin n → K)
    (v : Fin t.nLeaves → K) (r : Fin t.nLeaves) :
    ∑ k : Fin n, levelSum pa (t.distDepth s) v r k * lamb k =
      ∑ j, v j * distWeight pa lamb (t.distDepth s r j).toNat := by
  cases pa
  · have hw : ∀ l, n ≤ l → distWeight false lamb l = 0 := fun l hl =>
      Finset.sum_eq_zero fun k _ => by
        have : k.val ≠ l := by omega
        simp [this]
    have e : ∀ k : Fin n, distWeight false lamb k.val = lamb k := fun k => by
      simp [distWeight, ← Fin.ext_iff]
    rw [← sum_levelSum_false t h s _ hw]
    exact Finset.sum_congr rfl fun k _ => by rw [e]
  · rw [sum_levelSum_true t h s lamb v r]
    refine Finset.sum_congr rfl fun j _ => ?_
    congr 1
    unfold tailSum distWeight
    refine Finset.sum_congr rfl fun k _ => ?_
    congr 1
    simp only [true_and, eq_iff_iff]
    omega

/-- A sum over the leaves seen from two siblings. -/
theorem twin_sum (t : SkTree K C) (h : t.WF) (s : Style) (w : ℕ → K) (v : Fin t.nLeaves → K) {p : t.Node}
    {r q : Fin t.nLeaves} (hr : t.IsChild p (t.leafNode r)) (hq : t.IsChild p (t.leafNode q)) :
    ∑ j, v j * w (t.distDepth s r j).toNat - ∑ j, v j * w (t.distDepth s q j).toNat =
      (w 0 - w 1) * (v r - v q) := by
  classical
  by_cases hne : r = q
  · subst hne; simp
  obtain ⟨d1, d2, d3⟩ := twin_dist h hr hq hne s
  have hz : ∀ i, t.distDepth s i i = 0 := fun i => by
    have h8 := C08_distance_max_min t.toTopo h i i
    cases s
    · exact (distStandard_eq_zero h i i).2 rfl
    · exact h8.2.2.2.2.1.2 rfl
    · exact h8.2.2.2.2.2.1.2 rfl
  have e : ∀ j, v j * w (t.distDepth s r j).toNat - v j * w (t.distDepth s q j).toNat =
      (if j = r then v r * (w 0 - w 1) else 0) + (if j = q then v q * (w 1 - w 0) else 0) := by
    intro j
    by_cases h1 : j = r
    · subst h1
      rw [hz, d2, if_pos rfl, if_neg hne]
      simp; ring
    · by_cases h2 : j = q
      · subst h2
        rw [hz, d1, if_neg h1, if_pos rfl]
        simp; ring
      · rw [d3 j h1 h2, if_neg h1, if_neg h2]; ring
  rw [← Finset.sum_sub_distrib, Finset.sum_congr rfl fun j _ => e j, Finset.sum_add_distrib]
  simp
  ring

/-- C197: two sibling leaves of the same sample size have the same denominator, and their smoothed values differ by
their own difference times `n (lamb[0] - lamb[1])`, or `n lamb[0]` with `parents_all`, over that denominator. -/
theorem C197_siblings (kind : Kind) (t : SkTree K C) (h : t.WF) (hn : ∀ j, 0 < t.nSamp (t.leafNode j)) (s : Style)
    (pa : Bool) {n : ℕ} (lamb : Fin n → K) (hl : ∀ k, 0 ≤ lamb k) {p : t.Node} {r q : Fin t.nLeaves}
    (hr : t.IsChild p (t.leafNode r)) (hq : t.IsChild p (t.leafNode q))
    (he : t.nSamp (t.leafNode r) = t.nSamp (t.leafNode q)) (c : Fin C) :
    smoothDen t s pa lamb r = smoothDen t s pa lamb q ∧
    smoothDen t s pa lamb r * (smoothSpec kind t s pa lamb r c - smoothSpec kind t s pa lamb q c) =
      t.nSamp (t.leafNode r) * levelGap pa lamb *
        (nodeRate kind t (t.leafNode r) c - nodeRate kind t (t.leafNode q) c) := by
  have e1 : smoothDen t s pa lamb r = smoothDen t s pa lamb q := by
    unfold smoothDen
    rw [levelSum_distWeight t h, levelSum_distWeight t h, ← sub_eq_zero, twin_sum t h s _ _ hr hq]
    simp [he]
  refine ⟨e1, ?_⟩
  rw [mul_sub, den_mul_smoothSpec kind t h hn s pa lamb hl r c, e1, den_mul_smoothSpec kind t h hn s pa lamb hl q c]
  unfold smoothNum
  rw [levelSum_distWeight t h, levelSum_distWeight t h, twin_sum t h s _ _ hr hq, distWeight_gap,
    mass_eq_rate kind t (hn r), mass_eq_rate kind t (hn q), ← he]
  ring

/-- C197: hence the order of two such leaves is kept when the gap is positive, and exchanged when it is negative. -/
theorem C197_order (kind : Kind) (t : SkTree K C) (h : t.WF) (hn : ∀ j, 0 < t.nSamp (t.leafNode j)) (s : Style)
    (pa : Bool) {n : ℕ} (lamb : Fin n → K) (hl : ∀ k, 0 ≤ lamb k) {p : t.Node} {r q : Fin t.nLeaves}
    (hr : t.IsChild p (t.leafNode r)) (hq : t.IsChild p (t.leafNode q))
    (he : t.nSamp (t.leafNode r) = t.nSamp (t.leafNode q)) (c : Fin C) (hne : r ≠ q) :
    (0 < levelGap pa lamb → (smoothSpec kind t s pa lamb r c < smoothSpec kind t s pa lamb q c ↔
      nodeRate kind t (t.leafNode r) c < nodeRate kind t (t.leafNode q) c)) ∧
    (levelGap pa lamb = 0 → smoothSpec kind t s pa lamb r c = smoothSpec kind t s pa lamb q c) ∧
    (levelGap pa lamb < 0 → (smoothSpec kind t s pa lamb r c < smoothSpec kind t s pa lamb q c ↔
      nodeRate kind t (t.leafNode q) c < nodeRate kind t (t.leafNode r) c)) := by
  obtain ⟨hden, key⟩ := C197_siblings kind t h hn s pa lamb hl hr hq he c
  have hw : ∀ l, 0 ≤ distWeight pa lamb l := fun l => Finset.sum_nonneg fun k _ => by
    split
    · exact hl k
    · exact le_rfl
  have hd0 : 0 ≤ smoothDen t s pa lamb r := by
    unfold smoothDen
    rw [levelSum_distWeight t h]
    exact Finset.sum_nonneg fun j _ => mul_nonneg (hn j).le (hw _)
  have hpos : levelGap pa lamb ≠ 0 → 0 < smoothDen t s pa lamb r := by
    intro hg
    refine lt_of_le_of_ne hd0 fun h0 => hg ?_
    unfold smoothDen at h0
    rw [levelSum_distWeight t h] at h0
    have hz := (Finset.sum_eq_zero_iff_of_nonneg fun j _ => mul_nonneg (hn j).le (hw _)).1 h0.symm
    have z1 := (mul_eq_zero.1 (hz r (Finset.mem_univ r))).resolve_left (hn r).ne'
    have z2 := (mul_eq_zero.1 (hz q (Finset.mem_univ q))).resolve_left (hn q).ne'
    rw [(twin_dist h hr hq hne s).1] at z2
    have hzr : t.distDepth s r r = 0 := by
      have h8 := C08_distance_max_min t.toTopo h r r
      cases s
      · exact (distStandard_eq_zero h r r).2 rfl
      · exact h8.2.2.2.2.1.2 rfl
      · exact h8.2.2.2.2.2.1.2 rfl
    rw [hzr] at z1
    rw [← distWeight_gap]
    change distWeight pa lamb 0 = 0 at z1
    change distWeight pa lamb 1 = 0 at z2
    rw [z1, z2, sub_zero]
  refine ⟨fun hg => ?_, fun hg => ?_, fun hg => ?_⟩
  · have hd := hpos hg.ne'
    have hng := mul_pos (hn r) hg
    constructor
    · intro hlt
      have : smoothDen t s pa lamb r * (smoothSpec kind t s pa lamb r c - smoothSpec kind t s pa lamb q c) < 0 :=
        mul_neg_of_pos_of_neg hd (sub_neg.2 hlt)
      rw [key] at this
      exact sub_neg.1 ((pos_iff_neg_of_mul_neg this).1 hng)
    · intro hlt
      have := mul_neg_of_pos_of_neg hng (sub_neg.2 hlt)
      rw [← key] at this
      exact sub_neg.1 ((pos_iff_neg_of_mul_neg this).1 hd)
  · by_cases h0 : smoothDen t s pa lamb r = 0
    · unfold smoothSpec
      rw [if_pos h0, if_pos (hden ▸ h0)]
    · rw [hg, mul_zero, zero_mul] at key
      exact sub_eq_zero.1 ((mul_eq_zero.1 key).resolve_left h0)
  · have hd := hpos hg.ne
    have hng := mul_neg_of_pos_of_neg (hn r) hg
    constructor
    · intro hlt
      have : smoothDen t s pa lamb r * (smoothSpec kind t s pa lamb r c - smoothSpec kind t s pa lamb q c) < 0 :=
        mul_neg_of_pos_of_neg hd (sub_neg.2 hlt)
      rw [key] at this
      exact sub_pos.1 ((neg_iff_pos_of_mul_neg this).1 hng)
    · intro hlt
      have := mul_neg_of_neg_of_pos hng (sub_pos.2 hlt)
      rw [← key] at this
      exact sub_neg.1 ((pos_iff_neg_of_mul_neg this).1 hd)

/-- With `parents_all` the gap is `lamb[0]`; without it, `lamb[0] - lamb[1]`. -/
theorem levelGap_eq {n : ℕ} (lamb : Fin (n + 2) → K) :
    levelGap true lamb = lamb 0 ∧ levelGap false lamb = lamb 0 - lamb 1 := by
  unfold levelGap
  rw [Fin.sum_univ_succ, Fin.sum_univ_succ, Fin.sum_univ_succ, Fin.sum_univ_succ]
  simp [sub_eq_add_neg]

/-- `t'` is `t` with other node values, none of them smaller at a leaf. -/
def Raised (t t' : SkTree K C) : Prop :=
  ∃ v : t.Node → Fin C → K, t' = { t with value := v } ∧
    ∀ r c, t.value (t.leafNode r) c ≤ v (t.leafNode r) c

/-- C197: raising leaf values never lowers a smoothed value, and raises a leaf's own when its own weight is positive. -/
theorem C197_raise (kind : Kind) (t : SkTree K C) (h : t.WF) (hn : ∀ j, 0 < t.nSamp (t.leafNode j)) (s : Style)
    (pa : Bool) {n : ℕ} (lamb : Fin n → K) (hl : ∀ k, 0 ≤ lamb k) (v : t.Node → Fin C → K)
    (hv : ∀ r c, t.value (t.leafNode r) c ≤ v (t.leafNode r) c) (r : Fin t.nLeaves) (c : Fin C) :
    smoothSpec kind t s pa lamb r c ≤ smoothSpec kind { t with value := v } s pa lamb r c ∧
    (0 < ownDen t pa lamb r → t.value (t.leafNode r) c < v (t.leafNode r) c →
      smoothSpec kind t s pa lamb r c < smoothSpec kind { t with value := v } s pa lamb r c) := by
  have hw : ∀ l, 0 ≤ distWeight pa lamb l := fun l => Finset.sum_nonneg fun k _ => by
    split
    · exact hl k
    · exact le_rfl
  have hm : ∀ j, t.mass kind (t.leafNode j) c ≤
      SkTree.mass kind { t with value := v } (t.leafNode j) c := fun j => by
    unfold SkTree.mass
    split
    · exact mul_le_mul_of_nonneg_left (hv j c) (hn j).le
    · exact hv j c
  have hm' : t.value (t.leafNode r) c < v (t.leafNode r) c → t.mass kind (t.leafNode r) c <
      SkTree.mass kind { t with value := v } (t.leafNode r) c := fun hlt => by
    unfold SkTree.mass
    split
    · exact mul_lt_mul_of_pos_left hlt (hn r)
    · exact hlt
  have hd0 : 0 ≤ smoothDen t s pa lamb r := by
    unfold smoothDen
    rw [levelSum_distWeight t h]
    exact Finset.sum_nonneg fun j _ => mul_nonneg (hn j).le (hw _)
  have e1 : smoothNum kind t s pa lamb r c =
      ∑ j, t.mass kind (t.leafNode j) c * distWeight pa lamb (t.distDepth s r j).toNat :=
    levelSum_distWeight t h s pa lamb _ r
  have e2 : smoothNum kind { t with value := v } s pa lamb r c =
      ∑ j, SkTree.mass kind { t with value := v } (t.leafNode j) c *
        distWeight pa lamb (t.distDepth s r j).toNat :=
    levelSum_distWeight { t with value := v } h s pa lamb _ r
  have ed : smoothDen { t with value := v } s pa lamb r = smoothDen t s pa lamb r := rfl
  unfold smoothSpec
  rw [ed]
  constructor
  · split
    · exact le_rfl
    · refine div_le_div_of_nonneg_right ?_ hd0
      rw [e1, e2]
      exact Finset.sum_le_sum fun j _ => mul_le_mul_of_nonneg_right (hm j) (hw _)
  · intro ho hlt
    obtain ⟨w, hwn, hwr, hwd, -⟩ := exists_leaf_weight pa lamb hl t h s hn r
    have hp : 0 < smoothDen t s pa lamb r := by
      rw [hwd]
      exact lt_of_lt_of_le (hwr ▸ ho) (Finset.single_le_sum (fun j _ => hwn j) (Finset.mem_univ r))
    have hzr : t.distDepth s r r = 0 := by
      have h8 := C08_distance_max_min t.toTopo h r r
      cases s
      · exact (distStandard_eq_zero h r r).2 rfl
      · exact h8.2.2.2.2.1.2 rfl
      · exact h8.2.2.2.2.2.1.2 rfl
    have hw0 : 0 < distWeight pa lamb (t.distDepth s r r).toNat := by
      rw [hzr]
      have : ownDen t pa lamb r = t.nSamp (t.leafNode r) * distWeight pa lamb 0 := by
        unfold ownDen distWeight
        congr 1
        refine Finset.sum_congr rfl fun k _ => ?_
        congr 1
        cases pa
        · simp
        · simp only [true_or, true_and, eq_iff_iff, true_iff]; omega
      rw [this] at ho
      exact (mul_pos_iff_of_pos_left (hn r)).1 ho
    rw [if_neg hp.ne', if_neg hp.ne']
    refine div_lt_div_of_pos_right ?_ hp
    rw [e1, e2]
    exact Finset.sum_lt_sum (fun j _ => mul_le_mul_of_nonneg_right (hm j) (hw _))
      ⟨r, Finset.mem_univ r, mul_lt_mul_of_pos_right (hm' hlt) hw0⟩

/-- C197 for the whole procedure: of two calls that end with the same weights, on forests that differ in node values only,
the one with the larger leaf values returns the larger leaf values. -/
theorem C197_smooth_raise {sqrt : K → K}
    {ce : (n : ℕ) → SgdOpts K → K → List (Row K n) → List K → List ℕ →
      Except PyErr ((Fin n → K) × (Fin n → K) × List K)} (hC : 0 < C)
    {kind : Kind} {forest forest' : List (SkTree K C)}
    (hwf : ∀ t ∈ forest, t.WF) (hn : ∀ t ∈ forest, ∀ j, 0 < t.nSamp (t.leafNode j))
    (hf : List.Forall₂ Raised forest forest')
    {cfg cfg' : SmoothCfg K} (hst : cfg'.style = cfg.style) (hpa : cfg'.parentsAll = cfg.parentsAll)
    {sources sources' : TuneSrc → ℕ → List (TuneRow K C)}
    {out : SmoothOut K C (forestDepth forest + 1)} {out' : SmoothOut K C (forestDepth forest' + 1)}
    (h : smooth sqrt ce (some kind) forest cfg sources = .ok out)
    (h' : smooth sqrt ce (some kind) forest' cfg' sources' = .ok out')
    (hw : List.ofFn out'.lamb1 = List.ofFn out.lamb1) (hl : ∀ k, 0 ≤ out.lamb1 k) :
    List.Forall₂ Raised out.rf1 out'.rf1 := by
  have hwf' : ∀ t ∈ forest', t.WF := by
    clear hn h h' hw hl out out'
    induction hf with
    | nil => intro t' ht'; cases ht'
    | cons hr _ ih =>
      intro t' ht'
      rcases List.mem_cons.1 ht' with rfl | ht'
      · obtain ⟨v, rfl, -⟩ := hr
        have := hwf _ (List.mem_cons_self ..)
        exact this
      · exact ih (fun t ht => hwf t (List.mem_cons_of_mem _ ht)) t' ht'
  have k1 := C38_first_forest_rows hC hwf h
  have k2 := C38_first_forest_rows hC hwf' h'
  have hlam : ∀ (t : SkTree K C) (s : Style) (pa : Bool) (r : Fin t.nLeaves) (c : Fin C),
      smoothSpec kind t s pa out'.lamb1 r c = smoothSpec kind t s pa out.lamb1 r c := by
    intro t s pa r c
    generalize out'.lamb1 = l' at hw
    generalize out.lamb1 = l at hw
    generalize forestDepth forest' + 1 = n' at l' hw
    generalize forestDepth forest + 1 = n at l hw
    have hnn : n' = n := by simpa using congrArg List.length hw
    subst hnn
    rw [List.ofFn_injective hw]
  have hlam2 : ∀ k, 0 ≤ out.lamb1 k := hl
  rw [hst, hpa] at k2
  generalize out.rf1 = rf at k1
  generalize out'.rf1 = rf' at k2
  generalize out.lamb1 = l at k1 hlam hlam2
  generalize out'.lamb1 = l' at k2 hlam
  clear h h' hw hl out out'
  generalize forestDepth forest' + 1 = n' at l' k2 hlam
  generalize forestDepth forest + 1 = n at l k1 hlam hlam2
  induction hf generalizing rf rf' with
  | nil => cases k1; cases k2; exact .nil
  | @cons t t' ts ts' hr hrs ih =>
    cases k1 with
    | cons a1 b1 =>
      cases k2 with
      | cons a2 b2 =>
        refine .cons ?_ (ih (fun t ht => hwf t (List.mem_cons_of_mem _ ht))
          (fun t ht => hn t (List.mem_cons_of_mem _ ht)) (fun t ht => hwf' t (List.mem_cons_of_mem _ ht)) _ _ b2 b1)
        obtain ⟨v, rfl, hv⟩ := hr
        obtain ⟨u, rfl, hu, -⟩ := a1
        obtain ⟨u', rfl, hu', -⟩ := a2
        refine ⟨u', rfl, fun r c => ?_⟩
        show u (t.leafNode r) c ≤ u' (t.leafNode r) c
        rw [hu r c]
        refine le_trans (C197_raise kind t (hwf t (List.mem_cons_self ..)) (hn t (List.mem_cons_self ..)) cfg.style
          cfg.parentsAll l hlam2 v hv r c).1 ?_
        rw [← hlam]
        exact (hu' r c).ge

/-- C197 for the whole procedure: the order of sibling leaves of equal sample size in the first forest `smooth` returns,
with constrained weights. -/
theorem C197_smooth_order {sqrt : K → K}
    {ce : (n : ℕ) → SgdOpts K → K → List (Row K n) → List K → List ℕ →
      Except PyErr ((Fin n → K) × (Fin n → K) × List K)} (hC : 0 < C)
    {kind : Kind} {forest : List (SkTree K C)}
    (hwf : ∀ t ∈ forest, t.WF) (hn : ∀ t ∈ forest, ∀ j, 0 < t.nSamp (t.leafNode j))
    {cfg : SmoothCfg K} {sources : TuneSrc → ℕ → List (TuneRow K C)}
    {out : SmoothOut K C (forestDepth forest + 1)}
    (h : smooth sqrt ce (some kind) forest cfg sources = .ok out)
    (hc : cfg.noConstraint = false)
    (hk : kind = .reg ∨ cfg.lossL2 = true ∨ cfg.sanityCheck = true)
    (hs : ∀ u, cfg.seed = some u → ∀ i, 0 ≤ u i) (he : 0 ≤ cfg.classEps) :
    List.Forall₂ (fun t t' => ∃ v : t.Node → Fin C → K, t' = { t with value := v } ∧
      ∀ p r q, t.IsChild p (t.leafNode r) → t.IsChild p (t.leafNode q) → r ≠ q →
        t.nSamp (t.leafNode r) = t.nSamp (t.leafNode q) → ∀ c,
        (cfg.parentsAll = true → nodeRate kind t (t.leafNode r) c ≤ nodeRate kind t (t.leafNode q) c →
          v (t.leafNode r) c ≤ v (t.leafNode q) c) ∧
        (0 < levelGap cfg.parentsAll out.lamb1 → (v (t.leafNode r) c < v (t.leafNode q) c ↔
          nodeRate kind t (t.leafNode r) c < nodeRate kind t (t.leafNode q) c)) ∧
        (levelGap cfg.parentsAll out.lamb1 = 0 → v (t.leafNode r) c = v (t.leafNode q) c) ∧
        (levelGap cfg.parentsAll out.lamb1 < 0 → (v (t.leafNode r) c < v (t.leafNode q) c ↔
          nodeRate kind t (t.leafNode q) c < nodeRate kind t (t.leafNode r) c))) forest out.rf1 := by
  have hl := (C35_constrained_lamb_nonneg h hc hk hs he).1
  refine forall2_imp_mem (C38_first_forest_rows hC hwf h) fun t ht t' hu => ?_
  obtain ⟨v, e, hv, -⟩ := hu
  refine ⟨v, e, fun p r q hr hq hne hnn c => ?_⟩
  have key := C197_order kind t (hwf t ht) (hn t ht) cfg.style cfg.parentsAll out.lamb1 hl hr hq hnn c hne
  have key' := C197_order kind t (hwf t ht) (hn t ht) cfg.style cfg.parentsAll out.lamb1 hl hq hr hnn.symm c hne.symm
  simp only [hv]
  refine ⟨fun hpa hle => ?_, key⟩
  have hg : 0 ≤ levelGap cfg.parentsAll out.lamb1 := Finset.sum_nonneg fun k _ => by
    rw [hpa]
    split
    · exact hl k
    · simp
  rcases hg.eq_or_lt with h0 | h0
  · exact (key.2.1 h0.symm).le
  · exact not_lt.1 fun hlt => absurd ((key'.1 h0).1 hlt) (not_lt.2 hle)

/-- Three leaves, the first two siblings, with sample sizes and values to choose. -/
abbrev exOrder (n v : Fin 3 → ℚ) : SkTree ℚ 1 :=
  { toTopo := exTopo
    value := fun i _ => ![0, 0, v 0, v 1, v 2] i
    nSamp := ![n 0 + n 1 + n 2, n 0 + n 1, n 0, n 1, n 2]
    impurity := fun _ => 0 }

/-- The leaf values and weights of a call on one such tree, with seeded weights. -/
abbrev exOrderRun (n v : Fin 3 → ℚ) (pa : Bool) (u : ℕ → ℚ) : Option (List (List (List ℚ)) × List ℚ) :=
  match smooth (fun x => x) noCe (some .reg) [exOrder n v] { exCfg with parentsAll := pa, seed := some u }
      (fun _ => exTune) with
  | .ok out => some (leafValues out.rf1, List.ofFn out.lamb1)
  | .error _ => none

/-- Siblings of two observations each, with values 1 and 4: the order is kept with `parents_all`, and without it when
`lamb[1] < lamb[0]`. -/
example : exOrderRun ![2, 2, 3] ![1, 4, 10] true (fun i => if i = 1 then 2 else 1) =
      some ([[[62/17], [4], [25/4]]], [1/4, 1/2, 1/4]) ∧
    exOrderRun ![2, 2, 3] ![1, 4, 10] false (fun i => if i = 0 then 2 else 1) =
      some ([[[14/3], [16/3], [7]]], [1/2, 1/4, 1/4]) := by
  decide +kernel

/-- The first leaf raised from 1 to 3, with the same weights: every leaf rises. -/
example : exOrderRun ![2, 2, 3] ![3, 4, 10] true (fun i => if i = 1 then 2 else 1) =
      some ([[[78/17], [80/17], [27/4]]], [1/4, 1/2, 1/4]) := by
  decide +kernel

/-- C197: the order is not kept in general. Calls with constrained weights exchange the order of two leaves that are
siblings of equal sample size without `parents_all`; that are siblings of unequal sample size with `parents_all`; and
that have equal sample size but are not siblings, with `parents_all`. -/
theorem C197_refuted :
    exOrderRun ![2, 2, 3] ![1, 4, 10] false (fun i => if i = 1 then 2 else 1) =
      some ([[[16/3], [14/3], [50/11]]], [1/4, 1/2, 1/4]) ∧
    exOrderRun ![10, 1, 10] ![9, 10, 0] true (fun i => if i = 1 then 0 else 1) =
      some ([[[190/31], [5], [100/31]]], [1/2, 0, 1/2]) ∧
    exOrderRun ![1, 1, 1] ![1, 10, 2] true (fun i => if i = 2 then 0 else 1) =
      some ([[[4], [7], [15/4]]], [1/2, 1/2, 0]) := by
  decide +kernel

end SmoothRF
