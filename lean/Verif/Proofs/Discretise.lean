import Verif.Model.Discretise
import Mathlib.Tactic.Linarith
import Mathlib.Tactic.Positivity
import Mathlib.Tactic.FieldSimp
import Mathlib.Algebra.Order.Field.Basic

set_option linter.unusedSectionVars false

namespace SmoothRF

variable {K : Type} [Field K] [LinearOrder K] [IsStrictOrderedRing K]

theorem fin_lt {x y : K} : fin x < fin y ↔ x < y := by simp [fin]
theorem fin_le {x y : K} : fin x ≤ fin y ↔ x ≤ y := by simp [fin]
theorem bot_lt_fin (x : K) : (⊥ : Ext K) < fin x := WithBot.bot_lt_coe _
theorem fin_lt_top (x : K) : fin x < ((⊤ : WithTop K) : Ext K) :=
  WithBot.coe_lt_coe.2 (WithTop.coe_lt_top x)
theorem fin_inj {x y : K} : fin x = fin y ↔ x = y := by simp [fin]

theorem sortedSet_mem (levels : List K) (x : K) : x ∈ sortedSet levels ↔ x = 0 ∨ x ∈ levels := by
  simp only [sortedSet, List.mem_insertionSort, List.mem_dedup, List.mem_cons]

theorem sortedSet_sorted (levels : List K) : (sortedSet levels).Pairwise (· < ·) := by
  have h1 : (sortedSet levels).Pairwise (· ≤ ·) :=
    List.pairwise_insertionSort (· ≤ ·) ((0 :: levels).dedup)
  have h2 : (sortedSet levels).Nodup :=
    (List.perm_insertionSort (· ≤ ·) ((0 :: levels).dedup)).nodup_iff.2 (List.nodup_dedup _)
  exact (h1.and h2).imp fun ⟨a, b⟩ => lt_of_le_of_ne a b

theorem withInf_cons (x y : K) (mid : List K) :
    withInf (x :: (mid ++ [y])) = ⊥ :: (mid.map fin ++ [((⊤ : WithTop K) : Ext K)]) := by
  unfold withInf
  simp only [List.map_cons, List.map_append, List.map_nil, List.length_cons, List.length_append,
    List.length_nil]
  have : mid.length + (0 + 1) + 1 - 1 = mid.length + 1 := by omega
  rw [this]
  simp [List.set_append]

theorem withInf_single (x : K) : withInf [x] = [⊥] := by simp [withInf]

/-- Shape of a strictly sorted list with two or more entries. -/
theorem list_shape {α : Type} (l : List α) : l = [] ∨ (∃ x, l = [x]) ∨ ∃ x mid y, l = x :: (mid ++ [y]) := by
  rcases l with _ | ⟨x, l⟩
  · exact Or.inl rfl
  · rcases List.eq_nil_or_concat l with rfl | ⟨mid, y, rfl⟩
    · exact Or.inr (Or.inl ⟨x, rfl⟩)
    · exact Or.inr (Or.inr ⟨x, mid, y, by simp⟩)

theorem foldl_min_spec (p : K) (ps : List K) :
    (∀ x ∈ p :: ps, ps.foldl min p ≤ x) ∧ ps.foldl min p ∈ p :: ps := by
  induction ps generalizing p with
  | nil => simp
  | cons q ps ih =>
    obtain ⟨h1, h2⟩ := ih (min p q)
    simp only [List.foldl_cons]
    have h3 := h1 (min p q) (by simp)
    refine ⟨?_, ?_⟩
    · intro x hx
      simp only [List.mem_cons] at hx
      rcases hx with rfl | rfl | hx
      · exact le_trans h3 (min_le_left _ _)
      · exact le_trans h3 (min_le_right _ _)
      · exact h1 x (by simp [hx])
    · rcases List.mem_cons.1 h2 with h | h
      · rw [h]
        rcases le_total p q with hle | hle
        · simp [min_eq_left hle]
        · simp [min_eq_right hle]
      · simp [h]

theorem mem_positives {n : ℕ} (out : Fin n → Fin n → K) (x : K) :
    x ∈ positives out ↔ 0 < x ∧ ∃ i j, out i j = x := by
  simp only [positives, List.mem_filter, List.mem_flatMap, List.mem_finRange, List.mem_map,
    true_and, decide_eq_true_eq]
  exact and_comm

theorem cutLevel_mono (b : List (Ext K)) {x y : K} (h : x ≤ y) : cutLevel b x ≤ cutLevel b y := by
  unfold cutLevel
  apply Nat.sub_le_sub_right
  apply List.Sublist.length_le
  apply List.monotone_filter_right
  intro a ha
  simp only [decide_eq_true_eq] at ha ⊢
  exact lt_of_lt_of_le ha (fin_le.2 h)

theorem filter_length_lt {α : Type} {p q : α → Bool} {l : List α} (hpq : ∀ a, p a → q a)
    {b : α} (hb : b ∈ l) (hp : ¬ p b) (hq : q b) : (l.filter p).length < (l.filter q).length := by
  induction l with
  | nil => simp at hb
  | cons a l ih =>
    have hsub : (l.filter p).length ≤ (l.filter q).length :=
      (List.monotone_filter_right l hpq).length_le
    rcases List.mem_cons.1 hb with rfl | hb
    · simp only [List.filter_cons, hp, hq]
      simp; omega
    · have := ih hb
      simp only [List.filter_cons]
      by_cases h1 : p a
      · simp [h1, hpq a h1]; omega
      · by_cases h2 : q a <;> simp [h1, h2] <;> omega

/-- A break between `x` (inclusive) and `y` (exclusive) separates their levels. -/
theorem cutLevel_lt (b : List (Ext K)) (hbot : ⊥ ∈ b) {x y : K} {c : Ext K} (hc : c ∈ b)
    (h1 : fin x ≤ c) (h2 : c < fin y) : cutLevel b x < cutLevel b y := by
  unfold cutLevel
  have hlt := filter_length_lt (l := b) (p := fun b => decide (b < fin x))
    (q := fun b => decide (b < fin y))
    (by
      intro a ha
      simp only [decide_eq_true_eq] at ha ⊢
      exact lt_trans (lt_of_lt_of_le ha h1) h2)
    hc (by simpa using h1) (by simpa using h2)
  have hpos : 0 < (b.filter (fun b => decide (b < fin x))).length :=
    List.length_pos_of_mem (List.mem_filter.2 ⟨hbot, by simpa using bot_lt_fin x⟩)
  omega

theorem cutLevel_bound (b : List (Ext K)) (hbot : ⊥ ∈ b)
    (htop : ((⊤ : WithTop K) : Ext K) ∈ b) (x : K) : cutLevel b x + 2 ≤ b.length := by
  unfold cutLevel
  have hpos : 0 < (b.filter (fun b => decide (b < fin x))).length :=
    List.length_pos_of_mem (List.mem_filter.2 ⟨hbot, by simpa using bot_lt_fin x⟩)
  have hlt := filter_length_lt (l := b) (p := fun b => decide (b < fin x)) (q := fun _ => true)
    (by simp) htop (by simpa using (fin_lt_top x).le) rfl
  simp only [List.filter_true] at hlt
  omega

/-- What a successful `mkBreaks` returns. -/
theorem mkBreaks_ok {levels pos : List K} {b : List (Ext K)} (h : mkBreaks levels pos = .ok b) :
    ∃ x mid y u p ps, pos = p :: ps ∧ sortedSet levels = x :: (mid ++ [y]) ∧
      u = min (ps.foldl min p) 2 / 2 ∧
      (∀ c, c ∈ b ↔ c = ⊥ ∨ c ∈ mid.map fin ∨ c = ((⊤ : WithTop K) : Ext K) ∨
        (c = fin u ∧ fin u ∈ b)) ∧
      (x = 0 → (fin u ∈ b ∨ ∃ c ∈ (mid.map fin ++ [((⊤ : WithTop K) : Ext K)]).head?, c ≤ fin u)) := by
  unfold mkBreaks at h
  rcases pos with _ | ⟨p, ps⟩
  · cases h
  rcases list_shape (sortedSet levels) with he | ⟨x, he⟩ | ⟨x, mid, y, he⟩
  · exfalso
    have := (sortedSet_mem levels 0).2 (Or.inl rfl)
    rw [he] at this; simp at this
  · exfalso
    rw [he, withInf_single] at h
    have hn : ¬ (fin (0 : K) = ⊥) := (bot_lt_fin 0).ne'
    simp [hn] at h
  · refine ⟨x, mid, y, _, p, ps, rfl, he, rfl, ?_, ?_⟩
    all_goals
      rw [he, withInf_cons] at h
      set u := min (ps.foldl min p) 2 / 2 with hu
      set br : List (Ext K) := ⊥ :: (mid.map fin ++ [((⊤ : WithTop K) : Ext K)]) with hbr
      simp only at h
      split at h
      · cases h
      rename_i nxt hnxt
      have hb := (Except.ok.inj h).symm
    · intro c
      have hmem : c ∈ br ↔ c = ⊥ ∨ c ∈ mid.map fin ∨ c = ((⊤ : WithTop K) : Ext K) := by
        rw [hbr]; simp [or_assoc]
      by_cases hlt : fin u < nxt
      · rw [if_pos hlt] at hb
        have hm : ∀ c, c ∈ b ↔ c ∈ br ∨ c = fin u := by
          intro c
          rw [hb]
          generalize (if fin 0 ∈ br then br.idxOf (fin 0) else br.idxOf ⊥) + 1 = k
          conv_rhs => rw [← List.take_append_drop k br]
          simp only [List.mem_append, List.mem_singleton]
          tauto
        have hub : fin u ∈ b := (hm _).2 (Or.inr rfl)
        rw [hm, hmem]
        simp only [hub, and_true]
        tauto
      · rw [if_neg hlt] at hb
        rw [hb, hmem]
        constructor
        · tauto
        · rintro (h | h | h | ⟨h1, h2⟩)
          · tauto
          · tauto
          · tauto
          · rw [h1]; exact hmem.1 (by rw [h1]; exact h2) |> fun h' => by rwa [h1] at h'
    · intro hx
      subst hx
      have hs := sortedSet_sorted levels
      rw [he] at hs
      have h0 : fin (0 : K) ∉ br := by
        rw [hbr]
        simp only [List.mem_cons, List.mem_append, List.mem_map, List.not_mem_nil, or_false, not_or]
        refine ⟨(bot_lt_fin 0).ne', ?_, (fin_lt_top 0).ne⟩
        rintro ⟨z, hz, hz0⟩
        have : (0 : K) < z := (List.pairwise_cons.1 hs).1 z (by simp [hz])
        rw [fin_inj] at hz0
        exact absurd hz0 this.ne'
      rw [if_neg h0] at hb hnxt
      have hi : br.idxOf ⊥ = 0 := by rw [hbr]; simp
      rw [hi] at hb hnxt
      by_cases hlt : fin u < nxt
      · left; rw [hb, if_pos hlt]; simp [← hu]
      · right
        refine ⟨nxt, ?_, not_lt.1 hlt⟩
        rw [hbr] at hnxt
        rw [List.head?_eq_getElem?]
        simpa using hnxt

theorem mkBreaks_count_bot {levels pos : List K} {b : List (Ext K)}
    (h : mkBreaks levels pos = .ok b) : b.count ⊥ = 1 := by
  obtain ⟨x, mid, y, u, p, ps, hpos, he, -⟩ := mkBreaks_ok h
  subst hpos
  unfold mkBreaks at h
  rw [he, withInf_cons] at h
  set br : List (Ext K) := ⊥ :: (mid.map fin ++ [((⊤ : WithTop K) : Ext K)]) with hbr
  have hbrc : br.count ⊥ = 1 := by
    have h1 : (mid.map fin).count (⊥ : Ext K) = 0 := by
      rw [List.count_eq_zero]
      intro hm
      obtain ⟨z, _, hz⟩ := List.mem_map.1 hm
      exact (bot_lt_fin z).ne' hz
    have h2 : ((⊤ : WithTop K) : Ext K) ≠ ⊥ := WithBot.coe_ne_bot
    simp [hbr, List.count_cons, h1, h2]
  simp only at h
  split at h
  · cases h
  have hb := (Except.ok.inj h).symm
  split at hb
  · rw [hb]
    generalize (if fin 0 ∈ br then br.idxOf (fin 0) else br.idxOf ⊥) + 1 = k
    rw [List.count_append, List.count_append]
    have h3 : List.count (⊥ : Ext K) [fin (min (List.foldl min p ps) 2 / 2)] = 0 := by
      rw [List.count_eq_zero]
      simpa using (bot_lt_fin _).ne
    rw [h3, add_zero, ← List.count_append, List.take_append_drop, hbrc]
  · rw [hb, hbrc]

theorem mkBreaks_between {levels pos : List K} {br : List (Ext K)}
    (h : mkBreaks levels pos = .ok br) {b : K} (hb : b = 0 ∨ b ∈ levels)
    (ha : ∃ a, (a = 0 ∨ a ∈ levels) ∧ a < b) (hc : ∃ c, (c = 0 ∨ c ∈ levels) ∧ b < c) :
    fin b ∈ br := by
  obtain ⟨x, mid, y, u, p, ps, hpos, hsort, hu, hmem, hzero⟩ := mkBreaks_ok h
  obtain ⟨a, ha, hab⟩ := ha
  obtain ⟨c, hc, hbc⟩ := hc
  have hs := sortedSet_sorted levels
  rw [hsort] at hs
  have hxs := (List.pairwise_cons.1 hs).1
  have hmids := List.pairwise_append.1 (List.pairwise_cons.1 hs).2
  have hsm : ∀ z, (z = 0 ∨ z ∈ levels) ↔ z = x ∨ z ∈ mid ∨ z = y := by
    intro z; rw [← sortedSet_mem, hsort]; simp
  have hxy : x < y := hxs y (by simp)
  rcases (hsm b).1 hb with rfl | hm | rfl
  · exfalso
    rcases (hsm a).1 ha with rfl | h' | rfl
    · exact lt_irrefl _ hab
    · exact lt_asymm hab (hxs a (by simp [h']))
    · exact lt_asymm hab hxy
  · exact (hmem _).2 (Or.inr (Or.inl (List.mem_map.2 ⟨b, hm, rfl⟩)))
  · exfalso
    rcases (hsm c).1 hc with rfl | h' | rfl
    · exact lt_asymm hbc hxy
    · exact lt_asymm hbc (hmids.2.2 c h' b (by simp))
    · exact lt_irrefl _ hbc

theorem mkBreaks_sep {levels pos : List K} {br : List (Ext K)}
    (h : mkBreaks levels pos = .ok br) (hp0 : ∀ x ∈ pos, 0 < x) (hpl : ∃ b ∈ levels, 0 < b)
    {d : K} (hd : d ∈ pos) : ∃ c ∈ br, fin 0 ≤ c ∧ c < fin d := by
  obtain ⟨b, hbl, hb0⟩ := hpl
  by_cases hneg : ∃ a, (a = 0 ∨ a ∈ levels) ∧ a < 0
  · exact ⟨fin 0, mkBreaks_between h (Or.inl rfl) hneg ⟨b, Or.inr hbl, hb0⟩, le_rfl,
      fin_lt.2 (hp0 d hd)⟩
  · obtain ⟨x, mid, y, u, p, ps, hpos, hsort, hu, hmem, hzero⟩ := mkBreaks_ok h
    have hs := sortedSet_sorted levels
    rw [hsort] at hs
    have hxs := (List.pairwise_cons.1 hs).1
    have hx0 : x = 0 := by
      have h1 : ¬ x < 0 := fun hlt =>
        hneg ⟨x, (sortedSet_mem levels x).1 (by rw [hsort]; simp), hlt⟩
      have h2 : (0 : K) ∈ x :: (mid ++ [y]) := by
        rw [← hsort, sortedSet_mem]; exact Or.inl rfl
      rcases List.mem_cons.1 h2 with e | hm
      · exact e.symm
      · exact absurd (hxs 0 hm) h1
    obtain ⟨hmin, hminmem⟩ := foldl_min_spec p ps
    rw [← hpos] at hmin hminmem
    have hmpos : 0 < ps.foldl min p := hp0 _ hminmem
    have hu0 : 0 < u := by
      rw [hu]
      have : (0 : K) < min (ps.foldl min p) 2 := lt_min hmpos (by norm_num)
      linarith
    have hud : u < d := by
      have h3 := hmin d hd
      have h4 : min (ps.foldl min p) 2 ≤ ps.foldl min p := min_le_left _ _
      rw [hu]; linarith
    rcases hzero hx0 with hub | ⟨c, hc, hcu⟩
    · exact ⟨_, hub, fin_le.2 hu0.le, fin_lt.2 hud⟩
    · have hcm := List.mem_of_mem_head? hc
      rw [List.mem_append] at hcm
      rcases hcm with h' | h'
      · refine ⟨c, (hmem c).2 (Or.inr (Or.inl h')), ?_, lt_of_le_of_lt hcu (fin_lt.2 hud)⟩
        obtain ⟨z, hz, rfl⟩ := List.mem_map.1 h'
        exact fin_le.2 (by rw [← hx0]; exact (hxs z (by simp [hz])).le)
      · rw [List.mem_singleton.1 h'] at hcu
        exact absurd hcu (not_le.2 (fin_lt_top u))

theorem mkBreaks_bot_top {levels pos : List K} {br : List (Ext K)}
    (h : mkBreaks levels pos = .ok br) : ⊥ ∈ br ∧ ((⊤ : WithTop K) : Ext K) ∈ br := by
  obtain ⟨x, mid, y, u, p, ps, hpos, hsort, hu, hmem, hzero⟩ := mkBreaks_ok h
  exact ⟨(hmem _).2 (Or.inl rfl), (hmem _).2 (Or.inr (Or.inr (Or.inl rfl)))⟩

/-- Without negative breaks only `-inf` lies below zero. -/
theorem mkBreaks_below_zero {levels pos : List K} {br : List (Ext K)}
    (h : mkBreaks levels pos = .ok br) (hp0 : ∀ x ∈ pos, 0 < x) (hlev : ∀ b ∈ levels, 0 ≤ b)
    {c : Ext K} (hc : c ∈ br) (hc0 : c < fin 0) : c = ⊥ := by
  obtain ⟨x, mid, y, u, p, ps, hpos, hsort, hu, hmem, hzero⟩ := mkBreaks_ok h
  obtain ⟨hmin, hminmem⟩ := foldl_min_spec p ps
  rw [← hpos] at hmin hminmem
  have hmpos : 0 < ps.foldl min p := hp0 _ hminmem
  have hu0 : 0 < u := by
    rw [hu]
    have : (0 : K) < min (ps.foldl min p) 2 := lt_min hmpos (by norm_num)
    linarith
  rcases (hmem c).1 hc with h' | h' | h' | ⟨h', _⟩
  · exact h'
  · obtain ⟨z, hz, rfl⟩ := List.mem_map.1 h'
    have : z = 0 ∨ z ∈ levels := by rw [← sortedSet_mem, hsort]; simp [hz]
    have hz0 : 0 ≤ z := by
      rcases this with rfl | h''
      · exact le_rfl
      · exact hlev z h''
    exact absurd (fin_lt.1 hc0) (not_lt.2 hz0)
  · subst h'; exact absurd hc0 (not_lt.2 (fin_lt_top 0).le)
  · subst h'; exact absurd (fin_lt.1 hc0) (not_lt.2 hu0.le)

theorem discretise_ok {n : ℕ} {levels : List K} {out : Fin n → Fin n → K}
    {lev : Fin n → Fin n → ℕ} {L : ℕ} (h : discretise levels out = .ok (lev, L)) :
    ∃ br, mkBreaks levels (positives out) = .ok br ∧ lev = (fun i j => cutLevel br (out i j)) ∧
      L = br.length := by
  unfold discretise at h
  cases hb : mkBreaks levels (positives out) with
  | error e => rw [hb] at h; cases h
  | ok br =>
    rw [hb] at h
    have h1 := Except.ok.inj h
    exact ⟨br, rfl, (congrArg Prod.fst h1).symm, (congrArg Prod.snd h1).symm⟩

end SmoothRF
