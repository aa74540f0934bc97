import Verif.Model.TestCalls
import Verif.Props.CallProps

/-!
# C174: calls inside the package and its tests
-/

namespace SmoothRF

variable {V : Type}

/-- C174: every listed call names a function of the package, and its arguments are accepted whatever their
values. -/
theorem C174_accepted (d : String → V) : ∀ c ∈ packageCalls, ∃ s, sigOf c.fn = some s ∧
    ∀ (pos : List V) (kw : List (String × V)), pos.length = c.npos → kw.map Prod.fst = c.kws →
      ∃ env, bindCall (s.params d) pos kw = .ok env := by
  have key : ∀ c ∈ packageCalls, ∃ s ∈ sigOf c.fn, (s.req ++ s.opt).Nodup ∧ c.npos ≤ (s.req ++ s.opt).length ∧
      (∀ k ∈ c.kws, ∃ i < (s.req ++ s.opt).length, c.npos ≤ i ∧ (s.req ++ s.opt)[i]? = some k) ∧ c.kws.Nodup ∧
      ∀ i < s.req.length, c.npos ≤ i → ∃ k ∈ c.kws, (s.req ++ s.opt)[i]? = some k := by
    decide +kernel
  intro c hc
  obtain ⟨s, hs, h0, h1, h2, h3, h4⟩ := key c hc
  refine ⟨s, hs, fun pos kw hp hk => ?_⟩
  obtain ⟨env, he, -⟩ := (C139_binding (s.params d) (by rw [sig_names]; exact h0) pos kw).1 (by
    rw [sig_names, hp, hk]
    refine ⟨h1, h2, h3, fun i hi hpi hd => ?_⟩
    rw [sig_dflt _ _ hi] at hd
    exact h4 i (not_le.1 (of_decide_eq_false hd)) hpi)
  exact ⟨env, he⟩

/-- C174: the remaining calls, `_initialize_prune_df(tree, X, y)` in `test_initialize_prune_df_classification` and
`test_initialize_prune_df_regression`, raise TypeError whatever the values. -/
theorem C174_broken (d : String → V) : brokenCalls ≠ [] ∧ ∀ c ∈ brokenCalls, ∃ s, sigOf c.fn = some s ∧
    ∀ (pos : List V) (kw : List (String × V)), pos.length = c.npos → kw.map Prod.fst = c.kws →
      bindCall (s.params d) pos kw = .error .typeError := by
  refine ⟨by decide, ?_⟩
  have key : ∀ c ∈ brokenCalls, ∃ s ∈ sigOf c.fn, (s.req ++ s.opt).Nodup ∧ (s.req ++ s.opt).length < c.npos := by
    decide +kernel
  intro c hc
  obtain ⟨s, hs, h0, h1⟩ := key c hc
  refine ⟨s, hs, fun pos kw hp _ => ?_⟩
  refine (C139_binding (s.params d) (by rw [sig_names]; exact h0) pos kw).2 fun hL => ?_
  have := hL.few
  rw [sig_names, hp] at this
  omega

/-- One call of each list. -/
example : (match bindCall (((sigOf "_initialize_prune_df").getD ⟨[], []⟩).params fun _ => 0) [1, 2, 3] [] with
    | .ok _ => none | .error e => some e) = some .typeError ∧
    (match bindCall (((sigOf "calc_cost").getD ⟨[], []⟩).params fun _ => 0) [1, 2, 3, 4, 5] [] with
    | .ok env => some env | .error _ => none) = some [1, 2, 3, 4, 5] := by decide +kernel

end SmoothRF
