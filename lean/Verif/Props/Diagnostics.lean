import Verif.Model.Diagnostics
import Mathlib.Data.List.Basic
import Mathlib.Data.List.Sort
import Mathlib.Tactic.Ring
import Mathlib.Tactic.NormNum

/-!
# C72: convergence diagnostics
-/

namespace GW.Diagnostics
open GW.Tools (Err)

theorem linspace_get (a b k i : ℕ) (hi : i < k) :
    (linspaceInt a b k)[i]? = some (if k = 1 then a else if i + 1 = k then b else a + i * (b - a) / (k - 1)) := by
  simp [linspaceInt, hi]

/-- The points of the script, without the case of a single one. -/
theorem division_get {n k i : ℕ} (hi : i < k) (ds : List ℕ) (h : divisions n k = .ok ds) :
    ds[i]? = some (if i + 1 = k then n else n / k + i * (n - n / k) / (k - 1)) := by
  have hk : k ≠ 0 := by omega
  simp only [divisions, if_neg hk, Except.ok.injEq] at h
  subst h
  rw [linspace_get _ _ _ _ hi]
  by_cases h1 : k = 1
  · subst h1
    have : i = 0 := by omega
    subst this
    simp
  · simp [h1]

/-- C72: the chains are cut at `n_split` places, in increasing order, the first at a `n_split`-th of the draws and the last at the end; a plot with no cut is refused. -/
theorem C72_divisions (n k : ℕ) :
    (k = 0 → divisions n k = .error .zeroDivision) ∧
    (0 < k → ∃ ds, divisions n k = .ok ds ∧ ds.length = k ∧ ds.Pairwise (· ≤ ·) ∧ ds.head? = some (n / k) ∧ ds.getLast? = some n ∧ ∀ d ∈ ds, n / k ≤ d ∧ d ≤ n) := by
  constructor
  · intro h
    simp [divisions, h]
  · intro hk
    have hle : n / k ≤ n := Nat.div_le_self n k
    refine ⟨linspaceInt (n / k) n k, by simp [divisions, Nat.pos_iff_ne_zero.1 hk], by simp [linspaceInt], ?_, ?_, ?_, ?_⟩
    all_goals have hd : divisions n k = .ok (linspaceInt (n / k) n k) := by simp [divisions, Nat.pos_iff_ne_zero.1 hk]
    · rw [List.pairwise_iff_getElem]
      intro i j hi hj hij
      have hik : i < k := by simpa [linspaceInt] using hi
      have hjk : j < k := by simpa [linspaceInt] using hj
      have e1 := division_get hik _ hd
      have e2 := division_get hjk _ hd
      rw [List.getElem?_eq_getElem hi, Option.some.injEq] at e1
      rw [List.getElem?_eq_getElem hj, Option.some.injEq] at e2
      rw [e1, e2, if_neg (by omega)]
      split
      · have : i * (n - n / k) / (k - 1) ≤ n - n / k := by
          apply Nat.div_le_of_le_mul
          exact Nat.mul_le_mul_right _ (by omega)
        omega
      · have : i * (n - n / k) / (k - 1) ≤ j * (n - n / k) / (k - 1) := Nat.div_le_div_right (Nat.mul_le_mul_right _ (by omega))
        omega
    · rw [List.head?_eq_getElem?, division_get hk _ hd]
      by_cases h1 : k = 1
      · subst h1; simp
      · rw [if_neg (by omega)]; simp
    · rw [List.getLast?_eq_getElem?]
      have hl : (linspaceInt (n / k) n k).length = k := by simp [linspaceInt]
      rw [hl, division_get (by omega) _ hd, if_pos (by omega)]
    · intro d hdm
      obtain ⟨i, hi, rfl⟩ := List.getElem_of_mem hdm
      have hik : i < k := by simpa [linspaceInt] using hi
      have e1 := division_get hik _ hd
      rw [List.getElem?_eq_getElem hi, Option.some.injEq] at e1
      rw [e1]
      split
      · omega
      · have : i * (n - n / k) / (k - 1) ≤ n - n / k := by
          apply Nat.div_le_of_le_mul
          exact Nat.mul_le_mul_right _ (by omega)
        generalize i * (n - n / k) / (k - 1) = x at this ⊢
        omega

/-- C72: if there are at least as many draws as cuts, the cuts are at different places. -/
theorem C72_divisions_distinct (n k : ℕ) (hk : 0 < k) (hn : k ≤ n) (ds : List ℕ) (h : divisions n k = .ok ds) : ds.Pairwise (· < ·) := by
  have hl : ds.length = k := by
    simp only [divisions, if_neg (Nat.pos_iff_ne_zero.1 hk), Except.ok.injEq] at h
    subst h
    simp [linspaceInt]
  rw [List.pairwise_iff_getElem]
  intro i j hi hj hij
  have e1 := division_get (by omega : i < k) _ h
  have e2 := division_get (by omega : j < k) _ h
  rw [List.getElem?_eq_getElem hi, Option.some.injEq] at e1
  rw [List.getElem?_eq_getElem hj, Option.some.injEq] at e2
  -- the step between two points is at least one
  have step : k - 1 ≤ n - n / k := by
    have h2 : n / k * k ≤ n := Nat.div_mul_le_self n k
    have h3 : 1 ≤ n / k := (Nat.one_le_div_iff hk).2 hn
    have : n / k + (k - 1) ≤ n / k * k := by
      obtain ⟨q, hq⟩ : ∃ q, n / k = q + 1 := ⟨n / k - 1, by omega⟩
      obtain ⟨m, rfl⟩ : ∃ m, k = m + 1 := ⟨k - 1, by omega⟩
      rw [hq]
      simp only [Nat.add_sub_cancel]
      nlinarith
    omega
  have hk1 : 0 < k - 1 := by omega
  rw [e1, e2, if_neg (by omega)]
  have key : ∀ i : ℕ, i * (n - n / k) / (k - 1) + 1 ≤ (i + 1) * (n - n / k) / (k - 1) := by
    intro i
    rw [← Nat.add_div_right _ hk1]
    apply Nat.div_le_div_right
    rw [Nat.add_mul, Nat.one_mul]
    omega
  have mono : i * (n - n / k) / (k - 1) + 1 ≤ j * (n - n / k) / (k - 1) :=
    (key i).trans (Nat.div_le_div_right (Nat.mul_le_mul_right _ hij))
  split
  · next hj' =>
    have : j * (n - n / k) / (k - 1) = n - n / k := by
      rw [show j = k - 1 by omega]
      exact Nat.mul_div_cancel_left _ hk1
    have := Nat.div_le_self n k
    omega
  · omega

/-- C72, for the last point of a curve: it is the diagnostic of all the draws of all the chains.  Missing: the other points, see `C72_draws_violated`. -/
theorem C72_last_point_partial {α β} (diagnostic : List (List α) → List β) (chains : List (List α)) (n k : ℕ) (hk : 0 < k) (hn : ∀ c ∈ chains, c.length = n) :
    ∃ pts, curves diagnostic chains n k = .ok pts ∧ pts.length = k ∧ pts.getLast? = some (n, diagnostic chains) := by
  obtain ⟨ds, hd, hl, _, _, hlast, _⟩ := (C72_divisions n k).2 hk
  refine ⟨ds.map fun d => (d, diagnostic (upTo d chains)), by simp only [curves, hd]; rfl, by simp [hl], ?_⟩
  rw [List.getLast?_map, hlast]
  have : upTo n chains = chains := by
    unfold upTo
    conv_rhs => rw [← List.map_id chains]
    apply List.map_congr_left
    intro c hc
    rw [List.take_of_length_le (by rw [hn c hc]; omega)]
    rfl
  simp [this]

/-- What is drawn: the value at iteration `d` is that of the first `d + 1` draws. -/
theorem C72_draws {α β} (diagnostic : List (List α) → List β) (chains : List (List α)) (n k : ℕ) (pts : List (ℕ × List β))
    (h : curves diagnostic chains n k = .ok pts) : ∀ p ∈ pts, p.2 = diagnostic (chains.map (·.take (p.1 + 1))) := by
  unfold curves at h
  cases hd : divisions n k with
  | error e => simp [hd, bind, Except.bind] at h
  | ok ds =>
    simp only [hd, bind, Except.bind, pure, Except.pure, Except.ok.injEq] at h
    subst h
    intro p hp
    obtain ⟨d, _, rfl⟩ := List.mem_map.1 hp
    rfl

/-- C72 fails for the points but the last: of one chain of four draws, the first of two points is drawn at iteration 2 and is the value for three draws. -/
theorem C72_draws_violated : ∃ (diagnostic : List (List ℕ) → List ℕ) (chains : List (List ℕ)) (pts : List (ℕ × List ℕ)), curves diagnostic chains 4 2 = .ok pts ∧
    (∀ c ∈ chains, c.length = 4) ∧ ∃ p ∈ pts, p.2 ≠ diagnostic (chains.map (·.take p.1)) :=
  ⟨fun cs => cs.map List.length, [[10, 20, 30, 40]], [(2, [3]), (4, [4])], by decide +kernel, by simp, (2, [3]), by simp, by decide +kernel⟩

/-- C72: labels given by the user are used if there is one per parameter, and refused otherwise. -/
theorem C72_labels (given files : List String) (n : ℕ) :
    (given.length = n → plotLabels n (labels (some given) files) = .ok given) ∧ (given.length ≠ n → plotLabels n (labels (some given) files) = .error .valueError) := by
  constructor <;> intro h <;> simp [plotLabels, labels, h]

/-- C72 fails without labels: the curves are one per parameter, the labels one per file.  The plot fails if there are not as many files as parameters, and otherwise each
parameter is labelled with the name of a file. -/
theorem C72_default_labels_violated (files : List String) (n : ℕ) :
    plotLabels n (labels none files) = if files.length = n then .ok files else .error .valueError := rfl

example : divisions 1000 10 = .ok [100, 200, 300, 400, 500, 600, 700, 800, 900, 1000] := by decide +kernel

end GW.Diagnostics
