import Verif.Model.Calls
import Verif.Proofs.Gamma2
import Verif.Proofs.Sgd

/-!
# C139: Python calls
-/

set_option linter.unusedSectionVars false

namespace SmoothRF

variable {V : Type}

/-- A call is legal: no more positional arguments than parameters, every keyword names a parameter not
given by position, no keyword twice, and every parameter without default gets a value. -/
structure LegalCall (names : List String) (hasDflt : ℕ → Bool) (npos : ℕ) (kws : List String) : Prop where
  few : npos ≤ names.length
  known : ∀ k ∈ kws, ∃ i < names.length, npos ≤ i ∧ names[i]? = some k
  once : kws.Nodup
  full : ∀ i < names.length, npos ≤ i → hasDflt i = false → ∃ k ∈ kws, names[i]? = some k

/-- The keywords can be stored into the slots `s`. -/
def KwOk (ps : List (Param V)) (kw : List (String × V)) (s : List (Option V)) : Prop :=
  (kw.map Prod.fst).Nodup ∧ ∀ p ∈ kw, ∃ (i : ℕ) (q : Param V), ps[i]? = some q ∧ q.name = p.1 ∧ s[i]? = some none

theorem param_unique {ps : List (Param V)} (hnd : (ps.map Param.name).Nodup) {i j : ℕ} {q r : Param V}
    (hi : ps[i]? = some q) (hj : ps[j]? = some r) (h : q.name = r.name) : i = j := by
  refine (List.getElem?_inj (l := ps.map Param.name) ?_ hnd).1 ?_
  · rw [List.length_map]; exact (List.getElem?_eq_some_iff.1 hi).1
  · rw [List.getElem?_map, List.getElem?_map, hi, hj, Option.map_some, Option.map_some, h]

theorem findParam {ps : List (Param V)} {k : String} {i : ℕ} (h : ps.findIdx? (fun q => q.name == k) = some i) :
    ∃ q, ps[i]? = some q ∧ q.name = k := by
  obtain ⟨hi, hq, -⟩ := List.findIdx?_eq_some_iff_getElem.1 h
  exact ⟨ps[i], List.getElem?_eq_getElem hi, by simpa using hq⟩

theorem bindKws {ps : List (Param V)} (hnd : (ps.map Param.name).Nodup) (kw : List (String × V))
    (s : List (Option V)) (hs : s.length = ps.length) :
    (KwOk ps kw s → ∃ s', kw.foldlM (bindKw ps) s = .ok s' ∧ s'.length = s.length ∧
      ∀ (i : ℕ) (q : Param V), ps[i]? = some q → (∀ v, (q.name, v) ∈ kw → s'[i]? = some (some v)) ∧
        (q.name ∉ kw.map Prod.fst → s'[i]? = s[i]?)) ∧
    (¬ KwOk ps kw s → kw.foldlM (bindKw ps) s = .error .typeError) := by
  induction kw generalizing s with
  | nil =>
    refine ⟨fun _ => ⟨s, rfl, rfl, fun i q _ => ⟨by simp, fun _ => rfl⟩⟩, fun h => absurd ?_ h⟩
    exact ⟨by simp, by simp⟩
  | cons p kw ih =>
    rw [List.foldlM_cons]
    cases hf : ps.findIdx? (fun q => q.name == p.1) with
    | none =>
      have e : bindKw ps s p = .error .typeError := by unfold bindKw; rw [hf]
      rw [e]
      refine ⟨fun h => ?_, fun _ => rfl⟩
      obtain ⟨i, q, hq, hn, -⟩ := h.2 p (by simp)
      have := (List.findIdx?_eq_none_iff.1 hf) q (List.mem_of_getElem? hq)
      simp [hn] at this
    | some i =>
      obtain ⟨q, hq, hn⟩ := findParam hf
      have hi : i < s.length := by rw [hs]; exact (List.getElem?_eq_some_iff.1 hq).1
      have hsi : s[i]? = some s[i] := List.getElem?_eq_getElem hi
      cases hv : s[i] with
      | some w =>
        have e : bindKw ps s p = .error .typeError := by
          unfold bindKw
          rw [hf]
          simp [List.getD_eq_getElem?_getD, hsi, hv]
        rw [e]
        refine ⟨fun h => ?_, fun _ => rfl⟩
        obtain ⟨j, r, hr, hrn, hj⟩ := h.2 p (by simp)
        rw [param_unique hnd hr hq (hrn.trans hn.symm), hsi, hv] at hj
        cases hj
      | none =>
        have e : bindKw ps s p = .ok (s.set i (some p.2)) := by
          unfold bindKw
          rw [hf]
          simp [List.getD_eq_getElem?_getD, hsi, hv]
        rw [e]
        have hset : ∀ j, i ≠ j → (s.set i (some p.2))[j]? = s[j]? := fun j hj => List.getElem?_set_ne hj
        have hseti : (s.set i (some p.2))[i]? = some (some p.2) := by
          rw [List.getElem?_set_self hi]
        have hiff : KwOk ps (p :: kw) s ↔ KwOk ps kw (s.set i (some p.2)) := by
          constructor
          · rintro ⟨h1, h2⟩
            rw [List.map_cons, List.nodup_cons] at h1
            refine ⟨h1.2, fun p' hp' => ?_⟩
            obtain ⟨j, r, hr, hrn, hj⟩ := h2 p' (by simp [hp'])
            refine ⟨j, r, hr, hrn, ?_⟩
            rw [hset j, hj]
            rintro rfl
            rw [hq] at hr
            cases hr
            exact h1.1 (List.mem_map.2 ⟨p', hp', by rw [← hrn, hn]⟩)
          · rintro ⟨h1, h2⟩
            have hne : ∀ p' ∈ kw, ∀ (j : ℕ) (r : Param V), ps[j]? = some r → r.name = p'.1 →
                (s.set i (some p.2))[j]? = some none → i ≠ j := by
              rintro p' - j r - - hj rfl
              rw [hseti] at hj
              cases hj
            refine ⟨?_, ?_⟩
            · rw [List.map_cons, List.nodup_cons]
              refine ⟨fun hmem => ?_, h1⟩
              obtain ⟨p', hp', he⟩ := List.mem_map.1 hmem
              obtain ⟨j, r, hr, hrn, hj⟩ := h2 p' hp'
              exact hne p' hp' j r hr hrn hj (param_unique hnd hq hr (by rw [hn, hrn, he]))
            · intro p' hp'
              rcases List.mem_cons.1 hp' with rfl | hp'
              · exact ⟨i, q, hq, hn, by rw [hsi, hv]⟩
              · obtain ⟨j, r, hr, hrn, hj⟩ := h2 p' hp'
                refine ⟨j, r, hr, hrn, ?_⟩
                rw [← hset j (hne p' hp' j r hr hrn hj), hj]
        have ih := ih (s.set i (some p.2)) (by rw [List.length_set, hs])
        rw [hiff]
        refine ⟨fun h => ?_, fun h => ih.2 h⟩
        have hnk : p.1 ∉ kw.map Prod.fst := by
          have := (hiff.2 h).1
          rw [List.map_cons, List.nodup_cons] at this
          exact this.1
        obtain ⟨s', e', hlen, hs'⟩ := ih.1 h
        refine ⟨s', e', by rw [hlen, List.length_set], fun j r hr => ⟨fun v hv' => ?_, fun hv' => ?_⟩⟩
        · rcases List.mem_cons.1 hv' with he | hv'
          · have hrn : r.name = p.1 := by rw [← he]
            have hj := param_unique hnd hr hq (hrn.trans hn.symm)
            subst hj
            rw [(hs' j r hr).2 (by rw [hrn]; exact hnk), hseti, ← he]
          · exact (hs' j r hr).1 v hv'
        · rw [List.map_cons, List.mem_cons, not_or] at hv'
          rw [(hs' j r hr).2 hv'.2, hset j]
          rintro rfl
          rw [hq] at hr
          cases hr
          exact hv'.1 hn

theorem mapM_returns {α β : Type} {f : α → Except PyErr β} (l : List α) (h : ∀ x ∈ l, ∃ v, f x = .ok v) :
    ∃ ys, l.mapM f = .ok ys ∧ ys.length = l.length ∧
      ∀ (i : ℕ) (x : α) (v : β), l[i]? = some x → f x = .ok v → ys[i]? = some v := by
  induction l with
  | nil => exact ⟨[], rfl, rfl, by simp⟩
  | cons x l ih =>
    obtain ⟨v, hv⟩ := h x (by simp)
    obtain ⟨ys, e, hl, hy⟩ := ih fun x hx => h x (by simp [hx])
    refine ⟨v :: ys, ?_, by simp [hl], ?_⟩
    · rw [List.mapM_cons, hv, e]; rfl
    · intro i x' v' hx hv'
      cases i with
      | zero => cases hx; rw [hv] at hv'; cases hv'; rfl
      | succ i => simpa using hy i x' v' (by simpa using hx) hv'

theorem mapM_raises {α β : Type} {f : α → Except PyErr β} {e : PyErr} (l : List α)
    (hf : ∀ x ∈ l, (∃ v, f x = .ok v) ∨ f x = .error e) (h : ∃ x ∈ l, f x = .error e) :
    l.mapM f = .error e := by
  induction l with
  | nil => obtain ⟨x, hx, -⟩ := h; cases hx
  | cons x l ih =>
    rw [List.mapM_cons]
    rcases hf x (by simp) with ⟨v, hv⟩ | hv
    · obtain ⟨x', hx', he⟩ := h
      rcases List.mem_cons.1 hx' with rfl | hx'
      · rw [hv] at he; cases he
      · rw [hv, ih (fun x hx => hf x (by simp [hx])) ⟨x', hx', he⟩]
        rfl
    · rw [hv]; rfl

/-- C139: a call assigns its arguments (parameter names are distinct): it raises TypeError unless it is
legal, and otherwise every parameter has the value given by position, or the one given by keyword, or
its default. -/
theorem C139_binding (ps : List (Param V)) (hnd : (ps.map Param.name).Nodup) (pos : List V)
    (kw : List (String × V)) :
    (LegalCall (ps.map Param.name) (fun i => (ps[i]?.bind Param.dflt).isSome) pos.length
        (kw.map Prod.fst) →
      ∃ env, bindCall ps pos kw = .ok env ∧ env.length = ps.length ∧
        (∀ i < pos.length, env[i]? = pos[i]?) ∧
        ∀ (i : ℕ) (p : Param V), pos.length ≤ i → ps[i]? = some p → (∀ v, (p.name, v) ∈ kw → env[i]? = some v) ∧
          ((∀ v, (p.name, v) ∉ kw) → env[i]? = p.dflt)) ∧
    (¬ LegalCall (ps.map Param.name) (fun i => (ps[i]?.bind Param.dflt).isSome) pos.length
        (kw.map Prod.fst) → bindCall ps pos kw = .error .typeError) := by
  by_cases hfew : pos.length ≤ ps.length
  swap
  · refine ⟨fun h => absurd h.few (by rwa [List.length_map]), fun _ => ?_⟩
    unfold bindCall
    rw [if_pos (not_le.1 hfew)]
  set s0 : List (Option V) := pos.map some ++ List.replicate (ps.length - pos.length) none with hs0
  have hlen0 : s0.length = ps.length := by simp [hs0]; omega
  have hlo : ∀ i < pos.length, s0[i]? = some pos[i]? := by
    intro i hi
    rw [hs0, List.getElem?_append_left (by simpa using hi)]
    simp [hi]
  have hhi : ∀ i < ps.length, pos.length ≤ i → s0[i]? = some none := by
    intro i hi hp
    rw [hs0, List.getElem?_append_right (by simpa using hp), List.getElem?_replicate, if_pos]
    simp
    omega
  have hcall : bindCall ps pos kw = (kw.foldlM (bindKw ps) s0).bind fun slots =>
      (List.zip slots ps).mapM fun q => fillDefault q.1 q.2 := by
    unfold bindCall
    rw [if_neg (not_lt.2 hfew)]
    rfl
  have hkw : KwOk ps kw s0 ↔ (kw.map Prod.fst).Nodup ∧ ∀ k ∈ kw.map Prod.fst,
      ∃ i < (ps.map Param.name).length, pos.length ≤ i ∧ (ps.map Param.name)[i]? = some k := by
    unfold KwOk
    refine and_congr_right fun _ => ?_
    constructor
    · rintro h k hk
      obtain ⟨p, hp, rfl⟩ := List.mem_map.1 hk
      obtain ⟨i, q, hq, hn, hi⟩ := h p hp
      have hlt := (List.getElem?_eq_some_iff.1 hq).1
      refine ⟨i, by simpa using hlt, ?_, by rw [List.getElem?_map, hq, ← hn]; rfl⟩
      by_contra hc
      rw [hlo i (not_le.1 hc), List.getElem?_eq_getElem (not_le.1 hc)] at hi
      cases hi
    · intro h p hp
      obtain ⟨i, hi, hpi, he⟩ := h p.1 (List.mem_map.2 ⟨p, hp, rfl⟩)
      rw [List.length_map] at hi
      refine ⟨i, ps[i], List.getElem?_eq_getElem hi, ?_, hhi i hi hpi⟩
      simpa [hi] using he
  obtain ⟨hgood, hbad⟩ := bindKws hnd kw s0 hlen0
  by_cases hok : KwOk ps kw s0
  swap
  · refine ⟨fun h => absurd (hkw.2 ⟨h.once, h.known⟩) hok, fun _ => ?_⟩
    rw [hcall, hbad hok]
    rfl
  obtain ⟨s, e, hslen, hs⟩ := hgood hok
  rw [hcall, e]
  show (_ → ∃ env, (List.zip s ps).mapM (fun q => fillDefault q.1 q.2) = .ok env ∧ _) ∧
    (_ → (List.zip s ps).mapM (fun q => fillDefault q.1 q.2) = .error .typeError)
  have hzip : ∀ i (hi : i < ps.length), (List.zip s ps)[i]? = some (s[i]'(by omega), ps[i]) := by
    intro i hi
    rw [List.getElem?_eq_getElem (by simp; omega), List.getElem_zip]
  have hmem : ∀ q ∈ List.zip s ps, ∃ i, ∃ hi : i < ps.length, q = (s[i]'(by omega), ps[i]) := by
    intro q hq
    obtain ⟨i, hi, rfl⟩ := List.getElem_of_mem hq
    have : i < ps.length := by simp at hi; omega
    exact ⟨i, this, by rw [List.getElem_zip]⟩
  have hval : ∀ i (hi : i < ps.length), (i < pos.length → s[i]? = some pos[i]?) ∧
      (pos.length ≤ i → ∀ v, (ps[i].name, v) ∈ kw → s[i]? = some (some v)) ∧
      (pos.length ≤ i → (∀ v, (ps[i].name, v) ∉ kw) → s[i]? = some none) := by
    intro i hi
    have hq : ps[i]? = some ps[i] := List.getElem?_eq_getElem hi
    refine ⟨fun hp => ?_, fun _ v hv => (hs i _ hq).1 v hv, fun hp hv => ?_⟩
    · rw [(hs i _ hq).2, hlo i hp]
      intro hk
      obtain ⟨p, hp', hpn⟩ := List.mem_map.1 hk
      obtain ⟨j, r, hr, hrn, hj⟩ := hok.2 p hp'
      rw [param_unique hnd hr hq (hrn.trans hpn), hlo i hp, List.getElem?_eq_getElem hp] at hj
      cases hj
    · rw [(hs i _ hq).2, hhi i hi hp]
      intro hk
      obtain ⟨p, hp', hpn⟩ := List.mem_map.1 hk
      exact hv p.2 (by rw [← hpn]; exact hp')
  constructor
  · intro h
    have htot : ∀ q ∈ List.zip s ps, ∃ v, fillDefault q.1 q.2 = .ok v := by
      intro q hq
      obtain ⟨i, hi, rfl⟩ := hmem q hq
      unfold fillDefault
      cases hsi : s[i]'(by omega) with
      | some v => exact ⟨v, rfl⟩
      | none =>
        cases hd : ps[i].dflt with
        | some v => exact ⟨v, rfl⟩
        | none =>
          exfalso
          have hsn : s[i]? = some none := by rw [List.getElem?_eq_getElem (by omega), hsi]
          have hp : pos.length ≤ i := by
            by_contra hc
            rw [(hval i hi).1 (not_le.1 hc), List.getElem?_eq_getElem (not_le.1 hc)] at hsn
            cases hsn
          obtain ⟨k, hk, hki⟩ := h.full i (by simpa using hi) hp (by simp [hi, hd])
          obtain ⟨p, hp', rfl⟩ := List.mem_map.1 hk
          have : ps[i].name = p.1 := by simpa [hi] using hki
          rw [(hval i hi).2.1 hp p.2 (by rw [this]; exact hp')] at hsn
          cases hsn
    obtain ⟨env, e1, hl, hy⟩ := mapM_returns _ htot
    refine ⟨env, e1, by rw [hl]; simp; omega, fun i hi => ?_, fun i p hpi hp => ?_⟩
    · have hi' : i < ps.length := by omega
      refine (hy i _ pos[i] (hzip i hi') ?_).trans (List.getElem?_eq_getElem hi).symm
      have h1 := (hval i hi').1 hi
      rw [List.getElem?_eq_getElem (by omega), List.getElem?_eq_getElem hi] at h1
      simp only [Option.some.injEq] at h1
      show fillDefault _ _ = _
      rw [h1]
      rfl
    · obtain ⟨hi', rfl⟩ := List.getElem?_eq_some_iff.1 hp
      refine ⟨fun v hv => hy i _ v (hzip i hi') ?_, fun hv => ?_⟩
      · have h1 := (hval i hi').2.1 hpi v hv
        rw [List.getElem?_eq_getElem (by omega)] at h1
        simp only [Option.some.injEq] at h1
        show fillDefault _ _ = _
        rw [h1]
        rfl
      · have h1 := (hval i hi').2.2 hpi hv
        rw [List.getElem?_eq_getElem (by omega)] at h1
        simp only [Option.some.injEq] at h1
        obtain ⟨v, hv'⟩ := htot _ (List.mem_of_getElem? (hzip i hi'))
        rw [hy i _ v (hzip i hi') hv']
        dsimp only at hv'
        rw [h1] at hv'
        unfold fillDefault at hv'
        cases hd : ps[i].dflt with
        | some w => rw [hd] at hv'; cases hv'; rfl
        | none => rw [hd] at hv'; cases hv'
  · intro h
    refine mapM_raises _ (fun q _ => ?_) ?_
    · unfold fillDefault
      cases q.1 with
      | some v => exact Or.inl ⟨v, rfl⟩
      | none =>
        cases q.2.dflt with
        | some v => exact Or.inl ⟨v, rfl⟩
        | none => exact Or.inr rfl
    · by_contra hc
      refine h ⟨by rwa [List.length_map], (hkw.1 hok).2, (hkw.1 hok).1, fun i hi hpi hd => ?_⟩
      rw [List.length_map] at hi
      by_contra hk
      refine hc ⟨_, List.mem_of_getElem? (hzip i hi), ?_⟩
      have h1 := (hval i hi).2.2 hpi fun v hv => hk ⟨_, List.mem_map.2 ⟨_, hv, rfl⟩, by simp [hi]⟩
      rw [List.getElem?_eq_getElem (by omega)] at h1
      simp only [Option.some.injEq] at h1
      have hd' : ps[i].dflt = none := by simpa [hi] using hd
      show fillDefault _ _ = _
      rw [h1]
      unfold fillDefault
      rw [hd']

/-- A legal call and one that is not. -/
example : (match bindCall [⟨"a", none⟩, ⟨"b", some 5⟩, ⟨"c", some (7 : ℕ)⟩] [1] [("c", 2)] with
    | .ok env => some env | .error _ => none) = some [1, 5, 2] ∧
    (match bindCall [⟨"a", none⟩, ⟨"b", some (5 : ℕ)⟩] [1] [("a", 2)] with
    | .ok _ => false | .error e => decide (e = .typeError)) = true := by decide +kernel

/-! ### The `adam` dictionary -/

section
variable {K : Type} [Field K]

/-- The names an `adam` dictionary may use. -/
def adamKeys : List String := ["alpha", "beta_1", "beta_2", "eps"]

/-- The entry of a dictionary, or a default. -/
def entry (d : List (String × K)) (k : String) (x : K) : K := ((d.find? fun p => p.1 == k).map Prod.snd).getD x

theorem entry_mem {d : List (String × K)} (hd : (d.map Prod.fst).Nodup) {k : String} {v x : K} (h : (k, v) ∈ d) :
    entry d k x = v := by
  induction d with
  | nil => cases h
  | cons p d ih =>
    unfold entry
    rw [List.find?_cons]
    rw [List.map_cons, List.nodup_cons] at hd
    rcases List.mem_cons.1 h with rfl | h
    · simp
    · have : (p.1 == k) = false := by
        rw [beq_eq_false_iff_ne]
        rintro rfl
        exact hd.1 (List.mem_map.2 ⟨_, h, rfl⟩)
      rw [this]
      exact ih hd.2 h

theorem entry_not_mem {d : List (String × K)} {k : String} {x : K} (h : ∀ v, (k, v) ∉ d) : entry d k x = x := by
  unfold entry
  rw [List.find?_eq_none.2]
  · rfl
  · intro p hp
    rw [beq_iff_eq]
    rintro rfl
    exact h p.2 hp

/-- C139, the `adam` dictionary: with keys among alpha, beta_1, beta_2, eps the given entries and the
defaults 0.001, 0.9, 0.999, 1e-8 are used; any other key raises TypeError at the first step. -/
theorem C139_adam_dict (d : List (String × K)) (hd : (d.map Prod.fst).Nodup) :
    ((∀ p ∈ d, p.1 ∈ adamKeys) → adamFromDict d = .ok
      ⟨entry d "alpha" (1 / 1000), entry d "beta_1" (9 / 10), entry d "beta_2" (999 / 1000),
       entry d "eps" (1 / 10 ^ 8)⟩) ∧
    ((∃ p ∈ d, p.1 ∉ adamKeys) → adamFromDict d = .error .typeError) := by
  have hB := C139_binding (adamParams (K := K)) (by simp only [adamParams, List.map]; decide) []
    ([("grad_fun", .obj), ("lamb_init", .obj), ("internal_values", .obj)] ++
      d.map fun p => (p.1, .num p.2))
  have hk : ((([("grad_fun", .obj), ("lamb_init", .obj), ("internal_values", .obj)] ++
      d.map fun p => (p.1, .num p.2)) : List (String × AdamArg K)).map Prod.fst) =
      ["grad_fun", "lamb_init", "internal_values"] ++ d.map Prod.fst := by
    simp [Function.comp_def]
  rw [hk] at hB
  constructor
  · intro h
    have hL : LegalCall ((adamParams (K := K)).map Param.name)
        (fun i => ((adamParams (K := K))[i]?.bind Param.dflt).isSome) ([] : List (AdamArg K)).length
        (["grad_fun", "lamb_init", "internal_values"] ++ d.map Prod.fst) := by
      have hn : (adamParams (K := K)).map Param.name =
          ["grad_fun", "lamb_init", "alpha", "beta_1", "beta_2", "internal_values", "eps"] := rfl
      rw [hn]
      have hda : ∀ k ∈ d.map Prod.fst, k ∈ adamKeys := by
        intro k hk
        obtain ⟨p, hp, rfl⟩ := List.mem_map.1 hk
        exact h p hp
      refine ⟨by simp, ?_, ?_, ?_⟩
      · intro k hk
        have : k ∈ ["grad_fun", "lamb_init", "alpha", "beta_1", "beta_2", "internal_values", "eps"] := by
          rcases List.mem_append.1 hk with hk | hk
          · simp only [List.mem_cons, List.not_mem_nil, or_false] at hk ⊢
            tauto
          · have := hda k hk
            simp only [adamKeys, List.mem_cons, List.not_mem_nil, or_false] at this ⊢
            tauto
        obtain ⟨i, hi, rfl⟩ := List.getElem_of_mem this
        exact ⟨i, hi, Nat.zero_le _, List.getElem?_eq_getElem hi⟩
      · rw [List.nodup_append]
        refine ⟨by decide, hd, fun a ha b hb => ?_⟩
        have hb := hda b hb
        rintro rfl
        simp only [adamKeys, List.mem_cons, List.not_mem_nil, or_false] at ha hb
        rcases ha with rfl | rfl | rfl <;> revert hb <;> decide
      · intro i hi _ hdf
        match i, hi with
        | 0, _ => exact ⟨"grad_fun", by simp, rfl⟩
        | 1, _ => exact ⟨"lamb_init", by simp, rfl⟩
        | 5, _ => exact ⟨"internal_values", by simp, rfl⟩
        | 2, _ => cases hdf
        | 3, _ => cases hdf
        | 4, _ => cases hdf
        | 6, _ => cases hdf
    obtain ⟨env, he, hlen, -, hv⟩ := hB.1 hL
    have key : ∀ (i : ℕ) (n : String) (x : K), n ∈ adamKeys →
        (adamParams (K := K))[i]? = some ⟨n, some (.num x)⟩ → env[i]? = some (.num (entry d n x)) := by
      intro i n x hn hi
      have hnot : n ∉ ["grad_fun", "lamb_init", "internal_values"] := by
        simp only [adamKeys, List.mem_cons, List.not_mem_nil, or_false] at hn
        rcases hn with rfl | rfl | rfl | rfl <;> decide
      have hmem : ∀ a : AdamArg K, (n, a) ∈ ([("grad_fun", .obj), ("lamb_init", .obj),
          ("internal_values", .obj)] ++ d.map fun p => (p.1, (.num p.2 : AdamArg K))) ↔
          ∃ w, (n, w) ∈ d ∧ a = .num w := by
        intro a
        rw [List.mem_append]
        constructor
        · rintro (h1 | h1)
          · refine absurd ?_ hnot
            simp only [List.mem_cons, List.not_mem_nil, or_false, Prod.mk.injEq] at h1 ⊢
            tauto
          · obtain ⟨p, hp, he⟩ := List.mem_map.1 h1
            cases he
            exact ⟨p.2, hp, rfl⟩
        · rintro ⟨w, hw, rfl⟩
          exact Or.inr (List.mem_map.2 ⟨_, hw, rfl⟩)
      obtain ⟨h1, h2⟩ := hv i _ (Nat.zero_le _) hi
      by_cases hex : ∃ w, (n, w) ∈ d
      · obtain ⟨w, hw⟩ := hex
        rw [entry_mem hd hw]
        exact h1 _ ((hmem _).2 ⟨w, hw, rfl⟩)
      · rw [entry_not_mem fun w hw => hex ⟨w, hw⟩]
        exact h2 fun a ha => by
          obtain ⟨w, hw, -⟩ := (hmem a).1 ha
          exact hex ⟨w, hw⟩
    have k2 := key 2 "alpha" _ (by decide) rfl
    have k3 := key 3 "beta_1" _ (by decide) rfl
    have k4 := key 4 "beta_2" _ (by decide) rfl
    have k6 := key 6 "eps" _ (by decide) rfl
    unfold adamFromDict
    rw [he]
    match env, hlen with
    | [a0, a1, a2, a3, a4, a5, a6], _ =>
      simp only [List.getElem?_cons_succ, List.getElem?_cons_zero, Option.some.injEq] at k2 k3 k4 k6
      subst k2 k3 k4 k6
      rfl
  · rintro ⟨p, hp, hpk⟩
    unfold adamFromDict
    rw [hB.2]
    · rfl
    · intro hL
      by_cases hin : p.1 ∈ ["grad_fun", "lamb_init", "internal_values"]
      · have := (List.nodup_append.1 hL.once).2.2 p.1 hin p.1 (List.mem_map.2 ⟨p, hp, rfl⟩)
        exact this rfl
      · obtain ⟨i, -, -, hi⟩ := hL.known p.1 (List.mem_append_right _ (List.mem_map.2 ⟨p, hp, rfl⟩))
        have := List.mem_of_getElem? hi
        simp only [adamParams, List.map_cons, List.map_nil, adamKeys, List.mem_cons, List.not_mem_nil,
          or_false] at this hin hpk
        tauto

/-- The dictionary of main/1.0, and one with a misspelt key. -/
example : (match adamFromDict [("alpha", (1 / 50 : ℚ)), ("beta_2", 1 / 2)] with
    | .ok a => some [a.alpha, a.beta1, a.beta2, a.eps] | .error _ => none) =
      some [1 / 50, 9 / 10, 1 / 2, 1 / 10 ^ 8] ∧
    (match adamFromDict [("alpha", (1 / 50 : ℚ)), ("beta1", 1 / 2)] with
    | .ok _ => false | .error e => decide (e = .typeError)) = true := by decide +kernel

end

/-! ### The calls of the scripts -/

theorem sig_names (s : Sig) (d : String → V) : (s.params d).map Param.name = s.req ++ s.opt := by
  simp [Sig.params, Function.comp_def]

theorem sig_dflt (s : Sig) (d : String → V) {i : ℕ} (hi : i < (s.req ++ s.opt).length) :
    ((s.params d)[i]?.bind Param.dflt).isSome = decide (s.req.length ≤ i) := by
  unfold Sig.params
  by_cases h : i < s.req.length
  · rw [List.getElem?_append_left (by simpa using h)]
    simp [h]
  · rw [List.getElem?_append_right (by simpa using h)]
    have : i - s.req.length < s.opt.length := by simp at hi; omega
    simp [this]
    omega

/-- C139, main/: whatever the values, every call of the scripts in main/ is accepted. -/
theorem C139_main_calls (d : String → V) : ∀ c ∈ mainSites, ∀ (pos : List V) (kw : List (String × V)),
    pos.length = c.npos → kw.map Prod.fst = c.kws → ∃ env, bindCall (c.sig.params d) pos kw = .ok env := by
  have key : ∀ c ∈ mainSites, (c.sig.req ++ c.sig.opt).Nodup ∧ c.npos ≤ (c.sig.req ++ c.sig.opt).length ∧
      (∀ k ∈ c.kws, ∃ i < (c.sig.req ++ c.sig.opt).length, c.npos ≤ i ∧
        (c.sig.req ++ c.sig.opt)[i]? = some k) ∧ c.kws.Nodup ∧
      ∀ i < c.sig.req.length, c.npos ≤ i → ∃ k ∈ c.kws, (c.sig.req ++ c.sig.opt)[i]? = some k := by
    decide +kernel
  intro c hc pos kw hp hk
  obtain ⟨h0, h1, h2, h3, h4⟩ := key c hc
  obtain ⟨env, he, -⟩ := (C139_binding (c.sig.params d) (by rw [sig_names]; exact h0) pos kw).1 (by
    rw [sig_names, hp, hk]
    refine ⟨h1, h2, h3, fun i hi hpi hd => ?_⟩
    rw [sig_dflt _ _ hi] at hd
    exact h4 i (not_le.1 (of_decide_eq_false hd)) hpi)
  exact ⟨env, he⟩

/-- C139, main_old/: whatever the values, every call of `smooth` that passes `subgrad_max_num` raises
TypeError; so do all those of main_old/ listed in `oldSites`. -/
theorem C139_old_calls (d : String → V) (pos : List V) (kw : List (String × V)) :
    ("subgrad_max_num" ∈ kw.map Prod.fst → bindCall (sigSmooth.params d) pos kw = .error .typeError) ∧
    ∀ c ∈ oldSites, kw.map Prod.fst = c.kws → bindCall (c.sig.params d) pos kw = .error .typeError := by
  have key : "subgrad_max_num" ∈ kw.map Prod.fst → bindCall (sigSmooth.params d) pos kw = .error .typeError := by
    intro h
    refine (C139_binding _ (by rw [sig_names]; decide) pos kw).2 fun hL => ?_
    obtain ⟨i, -, -, hi⟩ := hL.known _ h
    rw [sig_names] at hi
    exact absurd (List.mem_of_getElem? hi) (by decide)
  refine ⟨key, fun c hc hk => ?_⟩
  have : ∀ c ∈ oldSites, c.sig.req = sigSmooth.req ∧ c.sig.opt = sigSmooth.opt ∧
      "subgrad_max_num" ∈ c.kws := by decide
  obtain ⟨h1, h2, h3⟩ := this c hc
  have hs : c.sig = sigSmooth := by
    cases hh : c.sig
    rw [hh] at h1 h2
    dsimp only at h1 h2
    rw [h1, h2]
  rw [hs]
  exact key (by rw [hk]; exact h3)

end SmoothRF
