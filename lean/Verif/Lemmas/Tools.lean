import Verif.Model.Tools

namespace GW.Tools

theorem reshape_spec {α} (b : Nat) : ∀ (k : Nat) (l : List α), l.length = k * b →
    (reshape b k l).flatten = l ∧ (reshape b k l).length = k ∧ ∀ c ∈ reshape b k l, c.length = b
  | 0, l, h => by
    have : l = [] := List.eq_nil_of_length_eq_zero (by simpa using h)
    simp [reshape, this]
  | k + 1, l, h => by
    have hb : b ≤ l.length := by rw [h, Nat.succ_mul]; omega
    obtain ⟨h1, h2, h3⟩ := reshape_spec b k (l.drop b) (by rw [List.length_drop, h, Nat.succ_mul]; omega)
    refine ⟨?_, ?_, ?_⟩
    · simp [reshape, h1]
    · simp [reshape, h2]
    · intro c hc
      simp only [reshape, List.mem_cons] at hc
      rcases hc with rfl | hc
      · simp [hb]
      · exact h3 c hc

theorem batchAndRemainder_ok {α} (x : List α) (b : Nat) (hb : 0 < b) :
    ∃ bs r, batchAndRemainder x b = .ok (bs, r) ∧ bs.flatten ++ r = x ∧ bs.length = x.length / b ∧
      (∀ c ∈ bs, c.length = b) ∧ r.length = x.length % b := by
  unfold batchAndRemainder
  rw [if_neg (by omega)]
  have hle : x.length / b * b ≤ x.length := Nat.div_mul_le_self _ _
  obtain ⟨h1, h2, h3⟩ := reshape_spec b (x.length / b) (x.take (x.length / b * b)) (by simp [hle])
  refine ⟨_, _, rfl, ?_, h2, h3, ?_⟩
  · rw [h1, List.take_append_drop]
  · have h := Nat.div_add_mod x.length b
    rw [Nat.mul_comm] at h
    rw [List.length_drop]
    generalize x.length / b * b = q at *
    omega

end GW.Tools
