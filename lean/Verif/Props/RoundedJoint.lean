import Verif.Lemmas.RoundedJoint
import Verif.Props.RoundedPopulation

/-!
# C109: joint distributions and populations of joint distributions in floating point arithmetic
-/

namespace GW.RoundedLikelihood
open GW XR Rounding
open GW.Robust (Within)

variable {f : Format} {fl : ℝ → XR}

/-- If nothing is rounded, the loop gives the sum of `C01_logProb_is_sum_over_blocks`. -/
theorem C109_exact_joint (ls : List XR) : jointLogProb fin ls = ls.sum := by
  have key : ∀ acc : XR, ls.foldl (fun acc l => Rounding.add fin acc l) acc = acc + ls.sum := by
    induction ls with
    | nil => intro acc; exact (add_zero acc).symm
    | cons l ls ih =>
      intro acc
      have e : Rounding.add fin acc l = acc + l := by
        unfold Rounding.add
        cases acc + l <;> rfl
      rw [List.foldl_cons, ih, e, List.sum_cons, add_assoc]
  have := key (fin 0)
  unfold jointLogProb
  rw [this]
  exact zero_add _

theorem sum_ninf {xs ys : List XR} {ε : ℝ} (h : List.Forall₂ (Within ε) xs ys) (hn : ninf ∈ ys) : xs.sum = ninf := by
  have hlog : ∀ {xs ys : List XR}, List.Forall₂ (Within ε) xs ys → xs.sum = ninf ∨ ∃ a, xs.sum = fin a := by
    intro xs ys h
    induction h with
    | nil => exact Or.inr ⟨0, rfl⟩
    | cons h _ ih =>
      rw [List.sum_cons]
      rcases h with ⟨rfl, -⟩ | ⟨a, b, rfl, -, -⟩ <;> rcases ih with e | ⟨c, e⟩ <;> rw [e]
      · exact Or.inl rfl
      · exact Or.inl rfl
      · exact Or.inl rfl
      · exact Or.inr ⟨a + c, by simp⟩
  induction h with
  | nil => simp at hn
  | cons h t ih =>
    rw [List.sum_cons]
    rcases List.mem_cons.1 hn with hn | hn
    · subst hn
      rcases h with ⟨rfl, -⟩ | ⟨a, b, -, e, -⟩
      · rcases hlog t with e | ⟨c, e⟩ <;> rw [e] <;> rfl
      · cases e
    · rw [ih hn]
      rcases h with ⟨rfl, -⟩ | ⟨a, b, rfl, -, -⟩ <;> rfl

theorem all_finite {xs ys : List XR} {ε : ℝ} (h : List.Forall₂ (Within ε) xs ys) (hn : ninf ∉ ys) :
    ∃ as bs : List ℝ, xs = as.map fin ∧ ys = bs.map fin ∧ |bs.sum - as.sum| ≤ ys.length * ε := by
  induction h with
  | nil => exact ⟨[], [], rfl, rfl, by simp⟩
  | cons h _ ih =>
    obtain ⟨as, bs, rfl, rfl, d⟩ := ih fun hc => hn (by simp [hc])
    rcases h with ⟨-, rfl⟩ | ⟨a, b, rfl, rfl, d'⟩
    · exact absurd (by simp) hn
    · refine ⟨a :: as, b :: bs, rfl, rfl, ?_⟩
      simp only [List.sum_cons, List.length_cons]
      push_cast
      obtain ⟨h1, h2⟩ := abs_le.1 d
      obtain ⟨h3, h4⟩ := abs_le.1 d'
      rw [abs_le]; constructor <;> linarith

/-- A joint distribution of `k` marginals: the computed log density is `-inf` exactly where a marginal is, and otherwise off from the sum of the exact log densities by at most
`k` times what the marginals are off by, plus `(1 + 2^-p)^k - 1` times `k b`, if the computed log densities of the marginals are at most `b` in size. -/
theorem C109_joint (hf : f.Usable) (h : Nearest f fl) {xs ys : List XR} {ε b : ℝ} (hb0 : 0 ≤ b) (hnear : List.Forall₂ (Within ε) xs ys) (hw : ∀ y ∈ ys, Weight f y)
    (hb : ∀ a, fin a ∈ ys → |a| ≤ b) (hsize : (1 + 1 / 2 ^ f.p) ^ ys.length * (ys.length * b) ≤ (2 : ℝ) ^ f.emax) :
    Within (ys.length * ε + ((1 + 1 / 2 ^ f.p) ^ ys.length - 1) * (ys.length * b)) xs.sum (jointLogProb fl ys) ∧ Weight f (jointLogProb fl ys) := by
  by_cases hn : ninf ∈ ys
  · have e : jointLogProb fl ys = ninf := fold_some_ninf hf h hb0 ys 0 (mem_zero hf) hw hn hb (by simpa using hsize)
    exact ⟨Or.inl ⟨sum_ninf hnear hn, e⟩, Or.inl e⟩
  · obtain ⟨as, bs, rfl, rfl, d⟩ := all_finite hnear hn
    have hlen : (bs.map fin).length = bs.length := List.length_map _
    have hm : ∀ a ∈ bs, f.Mem a := by
      intro a ha
      rcases hw (fin a) (List.mem_map.2 ⟨a, ha, rfl⟩) with e | ⟨c, e, m⟩
      · cases e
      · rwa [fin.inj e]
    have hT : (bs.map fun a => |a|).sum ≤ bs.length * b := by
      have : ∀ cs : List ℝ, (∀ a ∈ cs, |a| ≤ b) → (cs.map fun a => |a|).sum ≤ cs.length * b := by
        intro cs
        induction cs with
        | nil => intro _; simp
        | cons c cs ih =>
          intro hc
          have := ih fun a ha => hc a (by simp [ha])
          have := hc c (by simp)
          simp only [List.map_cons, List.sum_cons, List.length_cons]
          push_cast
          linarith
      exact this bs fun a ha => hb a (List.mem_map.2 ⟨a, ha, rfl⟩)
    rw [hlen] at d hsize ⊢
    have u1 : (1 : ℝ) ≤ (1 + 1 / 2 ^ f.p) ^ bs.length := one_le_pow₀ (by
      have : (0 : ℝ) ≤ 1 / 2 ^ f.p := by positivity
      linarith)
    obtain ⟨r, e, m, dr⟩ := fold_finite hf h bs 0 (mem_zero hf) hm (by
      rw [abs_zero, zero_add]
      exact (mul_le_mul_of_nonneg_left hT (by linarith)).trans hsize)
    rw [abs_zero, zero_add, zero_add] at dr
    have dr' := dr.trans (mul_le_mul_of_nonneg_left hT (by linarith))
    have hsum : ((as.map fin).sum : XR) = fin as.sum := by
      clear * -
      induction as with
      | nil => rfl
      | cons a as ih => rw [List.map_cons, List.sum_cons, ih, List.sum_cons, add_fin_fin]
    refine ⟨Or.inr ⟨as.sum, r, hsum, e, ?_⟩, Or.inr ⟨r, e, m⟩⟩
    have := abs_sub_le r bs.sum as.sum
    linarith

/-- A mixture whose components are themselves off by at most `ε`: each component is given by its log rate, its exact and its computed log density.  The computed log rate density
is `-inf` where every component is, and otherwise off by at most `ε + (5 n + 3 (B + 1)) / 2^p` from the logarithm of the exact rate density. -/
theorem C109_components (hw : Wide f) (h : Nearest f fl) (R : Reduction) (cs : List (ℝ × XR × XR)) {ε B : ℝ} (hε : ε ≤ 1)
    (hc : ∀ c ∈ cs, f.Mem c.1 ∧ Within ε c.2.1 c.2.2 ∧ Weight f c.2.2 ∧ ∀ a, c.2.1 = fin a → |c.1 + a| ≤ B)
    (hn : (8 : ℝ) * cs.length ≤ 2 ^ f.p) (hb : 2 * (B + 1) + cs.length ≤ (2 : ℝ) ^ f.emax) :
    Within (ε + (5 * cs.length + 3 * (B + 1)) / 2 ^ f.p) (log (fin (cs.map fun c => Real.exp c.1 * c.2.1.expR).sum))
      (mixtureLogProb fl R (cs.map fun c => (c.1, c.2.2))) := by
  classical
  have hpp : (0 : ℝ) < 2 ^ f.p := by positivity
  have bound : ∀ c ∈ cs, ∀ a, c.2.2 = fin a → |c.1 + a| ≤ B + 1 := by
    intro c hc' a ha
    obtain ⟨-, hwi, -, hB⟩ := hc c hc'
    rcases hwi with ⟨-, e⟩ | ⟨x, y, e1, e2, d⟩
    · rw [e] at ha; cases ha
    · rw [ha] at e2
      obtain rfl := fin.inj e2
      have h1 := hB x e1
      have := abs_add_le (c.1 + x) (a - x)
      rw [show c.1 + x + (a - x) = c.1 + a by ring] at this
      linarith
  have len : (finites ((cs.map fun c => (c.1, c.2.2)).map (·.2)) : ℝ) ≤ cs.length := by
    have : finites ((cs.map fun c => (c.1, c.2.2)).map (·.2)) ≤ cs.length := by
      unfold finites
      refine (List.length_filter_le _ _).trans ?_
      simp
    exact_mod_cast this
  have term : ∀ c ∈ cs, Real.exp c.1 * c.2.1.expR = (fin c.1 + c.2.1).expR ∧ Real.exp c.1 * c.2.2.expR = (fin c.1 + c.2.2).expR := by
    intro c hc'
    rcases (hc c hc').2.1 with ⟨e1, e2⟩ | ⟨x, y, e1, e2, -⟩ <;> rw [e1, e2] <;> simp [XR.expR, Real.exp_add]
  have dens : (cs.map fun c => Real.exp c.1 * c.2.1.expR).sum = ((cs.map fun c => fin c.1 + c.2.1).map expR).sum := by
    rw [List.map_map]; congr 1
    exact List.map_congr_left fun c hc' => (term c hc').1
  by_cases hx : ∃ c ∈ cs, c.2.2 ≠ ninf
  · obtain ⟨c0, hc0, hn0⟩ := hx
    obtain ⟨r, e, b⟩ := C109_mixture_accurate hw h R (cs.map fun c => (c.1, c.2.2)) (B + 1)
      (by
        intro p hp
        obtain ⟨c, hc', rfl⟩ := List.mem_map.1 hp
        exact ⟨(hc c hc').1, (hc c hc').2.2.1, bound c hc'⟩)
      ⟨_, List.mem_map.2 ⟨c0, hc0, rfl⟩, hn0⟩ (by linarith) (by linarith)
    have hpos : 0 < (cs.map fun c => Real.exp c.1 * c.2.1.expR).sum := by
      refine lt_of_lt_of_le ?_ (List.single_le_sum ?_ _ (List.mem_map.2 ⟨c0, hc0, rfl⟩))
      · rcases (hc c0 hc0).2.1 with ⟨-, e2⟩ | ⟨x, y, e1, -, -⟩
        · exact absurd e2 hn0
        · rw [e1]
          exact mul_pos (Real.exp_pos _) (Real.exp_pos _)
      · intro z hz
        obtain ⟨q, -, rfl⟩ := List.mem_map.1 hz
        exact mul_nonneg (Real.exp_pos _).le (expR_nonneg _)
    have sw := Robust.sum_within (e := ε) (Robust.forall₂_map (l := cs) (f := fun c => fin c.1 + c.2.1) (g := fun c => fin c.1 + c.2.2) fun c hc' => by
      have := (hc c hc').2.1.add (d := 0) (s := fin c.1) (t := fin c.1) (Or.inr ⟨_, _, rfl, rfl, by simp⟩)
      rwa [zero_add] at this)
    rw [← dens] at sw
    have lw := Robust.log_sum_within sw.1 sw.2 hpos
    have same : ((cs.map fun c => (c.1, c.2.2)).map fun c => Real.exp c.1 * expR c.2).sum = ((cs.map fun c => fin c.1 + c.2.2).map expR).sum := by
      rw [List.map_map, List.map_map]; congr 1
      exact List.map_congr_left fun c hc' => (term c hc').2
    rw [same] at b
    refine Or.inr ⟨_, r, log_fin_pos hpos, e, ?_⟩
    have t := abs_sub_le r (Real.log ((cs.map fun c => fin c.1 + c.2.2).map expR).sum) (Real.log (cs.map fun c => Real.exp c.1 * c.2.1.expR).sum)
    have q : (5 * ((finites ((cs.map fun c => (c.1, c.2.2)).map (·.2)) : ℝ) - 1) + 3 * (B + 1)) / 2 ^ f.p ≤ (5 * cs.length + 3 * (B + 1)) / 2 ^ f.p :=
      div_le_div_of_nonneg_right (by linarith) hpp.le
    linarith
  · left
    have none : ∀ c ∈ cs, c.2.2 = ninf := fun c hc' => by
      by_contra hne
      exact hx ⟨c, hc', hne⟩
    have none' : ∀ c ∈ cs, c.2.1 = ninf := fun c hc' => by
      rcases (hc c hc').2.1 with ⟨e, -⟩ | ⟨x, y, -, e, -⟩
      · exact e
      · rw [none c hc'] at e; cases e
    have z : (cs.map fun c => Real.exp c.1 * c.2.1.expR).sum = 0 := by
      refine List.sum_eq_zero fun x hx' => ?_
      obtain ⟨c, hc', rfl⟩ := List.mem_map.1 hx'
      simp [none' c hc', XR.expR]
    refine ⟨by rw [z]; exact log_fin_zero, ?_⟩
    refine ((C109_mixture hw.1 h R _ ?_ ?_).1).2 ?_
    · intro p hp
      obtain ⟨c, hc', rfl⟩ := List.mem_map.1 hp
      left
      change Rounding.add fl (fin c.1) c.2.2 = ninf
      rw [none c hc']; rfl
    · rw [List.length_map]
      have : (cs.length : ℝ) < 2 ^ f.p := by
        have h0 : (0 : ℝ) ≤ cs.length := Nat.cast_nonneg _
        rcases h0.eq_or_lt with e | e
        · rw [← e]; exact hpp
        · linarith
      exact_mod_cast this
    · intro p hp
      obtain ⟨c, hc', rfl⟩ := List.mem_map.1 hp
      change Rounding.add fl (fin c.1) c.2.2 = ninf
      rw [none c hc']; rfl

theorem within_mono {d e : ℝ} {x y : XR} (h : Within d x y) (hde : d ≤ e) : Within e x y := by
  rcases h with h | ⟨a, b, h1, h2, h3⟩
  · exact Or.inl h
  · exact Or.inr ⟨a, b, h1, h2, h3.trans hde⟩

theorem expR_sum {xs ys : List XR} {ε : ℝ} (h : List.Forall₂ (Within ε) xs ys) : xs.sum.expR = (xs.map expR).prod := by
  have key : xs.sum.expR = (xs.map expR).prod ∧ (xs.sum = ninf ∨ ∃ a, xs.sum = fin a) := by
    induction h with
    | nil => exact ⟨by simp [XR.expR], Or.inr ⟨0, rfl⟩⟩
    | cons h _ ih =>
      obtain ⟨ih, t⟩ := ih
      rw [List.sum_cons, List.map_cons, List.prod_cons, ← ih]
      rcases h with ⟨rfl, -⟩ | ⟨a, b, rfl, -, -⟩ <;> rcases t with e | ⟨c, e⟩ <;> rw [e]
      · exact ⟨by simp [XR.expR], Or.inl rfl⟩
      · exact ⟨by simp [XR.expR], Or.inl rfl⟩
      · exact ⟨by simp [XR.expR], Or.inl rfl⟩
      · exact ⟨by simp [XR.expR, Real.exp_add], Or.inr ⟨a + c, by simp⟩⟩
  exact key.1

/-- A population of joint distributions: each component is given by its log rate and, for each of its at most `k` marginals, the exact and the computed log density at the point.
If the marginals are off by at most `ε`, the computed log rate density is off from the logarithm of `Σ rate Π densities` by at most `k ε` and rounding errors. -/
theorem C109_population (hw : Wide f) (h : Nearest f fl) (R : Reduction) (cs : List (ℝ × List (XR × XR))) (k : ℕ) {ε b B : ℝ} (hε0 : 0 ≤ ε) (hb0 : 0 ≤ b)
    (hk : ∀ c ∈ cs, c.2.length ≤ k) (hrate : ∀ c ∈ cs, f.Mem c.1)
    (hmarg : ∀ c ∈ cs, ∀ p ∈ c.2, Within ε p.1 p.2 ∧ Weight f p.2 ∧ ∀ a, p.2 = fin a → |a| ≤ b)
    (hB : ∀ c ∈ cs, ∀ a, (c.2.map (·.1)).sum = fin a → |c.1 + a| ≤ B)
    (hsize : (1 + 1 / 2 ^ f.p) ^ k * (k * b) ≤ (2 : ℝ) ^ f.emax)
    (δ : ℝ) (hδ : δ = k * ε + ((1 + 1 / 2 ^ f.p) ^ k - 1) * (k * b)) (hδ1 : δ ≤ 1)
    (hn : (8 : ℝ) * cs.length ≤ 2 ^ f.p) (hb : 2 * (B + 1) + cs.length ≤ (2 : ℝ) ^ f.emax) :
    Within (δ + (5 * cs.length + 3 * (B + 1)) / 2 ^ f.p) (log (fin (cs.map fun c => Real.exp c.1 * (c.2.map fun p => p.1.expR).prod).sum))
      (mixtureLogProb fl R (cs.map fun c => (c.1, jointLogProb fl (c.2.map (·.2))))) := by
  have u0 : (0 : ℝ) ≤ 1 / 2 ^ f.p := by positivity
  have near : ∀ c ∈ cs, List.Forall₂ (Within ε) (c.2.map (·.1)) (c.2.map (·.2)) := fun c hc => Robust.forall₂_map fun p hp => (hmarg c hc p hp).1
  have joint : ∀ c ∈ cs, Within δ (c.2.map (·.1)).sum (jointLogProb fl (c.2.map (·.2))) ∧ Weight f (jointLogProb fl (c.2.map (·.2))) := by
    intro c hc
    have hlen : ((c.2.map (·.2)).length : ℝ) ≤ k := by rw [List.length_map]; exact_mod_cast hk c hc
    have hpow : (1 + 1 / 2 ^ f.p : ℝ) ^ (c.2.map (·.2)).length ≤ (1 + 1 / 2 ^ f.p) ^ k :=
      pow_le_pow_right₀ (by linarith) (by rw [List.length_map]; exact hk c hc)
    have hpow1 : (1 : ℝ) ≤ (1 + 1 / 2 ^ f.p) ^ (c.2.map (·.2)).length := one_le_pow₀ (by linarith)
    have hkb : ((c.2.map (·.2)).length : ℝ) * b ≤ k * b := mul_le_mul_of_nonneg_right hlen hb0
    have l0 : (0 : ℝ) ≤ ((c.2.map (·.2)).length : ℝ) * b := by positivity
    obtain ⟨j1, j2⟩ := C109_joint hw.1 h hb0 (near c hc)
      (by
        intro y hy
        obtain ⟨p, hp, rfl⟩ := List.mem_map.1 hy
        exact (hmarg c hc p hp).2.1)
      (by
        intro a ha
        obtain ⟨p, hp, e⟩ := List.mem_map.1 ha
        exact (hmarg c hc p hp).2.2 a e)
      ((mul_le_mul hpow hkb l0 (by linarith)).trans hsize)
    refine ⟨within_mono j1 ?_, j2⟩
    rw [hδ]
    exact add_le_add (mul_le_mul_of_nonneg_right hlen hε0) (mul_le_mul (by linarith) hkb l0 (by linarith))
  have key := C109_components hw h R (cs.map fun c => (c.1, (c.2.map (·.1)).sum, jointLogProb fl (c.2.map (·.2)))) (ε := δ) (B := B) hδ1
    (by
      intro q hq
      obtain ⟨c, hc, rfl⟩ := List.mem_map.1 hq
      exact ⟨hrate c hc, (joint c hc).1, (joint c hc).2, hB c hc⟩)
    (by rw [List.length_map]; exact hn) (by rw [List.length_map]; exact hb)
  rw [List.length_map, List.map_map, List.map_map] at key
  have e : (cs.map ((fun c : ℝ × XR × XR => Real.exp c.1 * c.2.1.expR) ∘ fun c => (c.1, (c.2.map (·.1)).sum, jointLogProb fl (c.2.map (·.2))))).sum =
      (cs.map fun c => Real.exp c.1 * (c.2.map fun p => p.1.expR).prod).sum := by
    congr 1
    refine List.map_congr_left fun c hc => ?_
    change Real.exp c.1 * (c.2.map (Prod.fst : XR × XR → XR)).sum.expR = _
    rw [expR_sum (near c hc), List.map_map]
    rfl
  rw [e] at key
  exact key

/-- `C109_joint` and `C109_components` at work, in single precision: two populations with two marginals each, one of them without support at the point; the marginals are off by a
thousandth. -/
example (fl : ℝ → XR) (h : Nearest single fl) (R : Reduction) :
    Within (3 / 1000) (log (fin (Real.exp 1 * (Real.exp (-1 / 1000) * (Real.exp 2 * 1)) + (Real.exp 2 * (0 * (Real.exp 1 * 1)) + 0))))
      (mixtureLogProb fl R [(1, jointLogProb fl [fin 0, fin 2]), (2, jointLogProb fl [ninf, fin 1])]) := by
  have hm : ∀ n : ℤ, |n| < 8 → single.Mem n := mem_int wide_single.1
  have big : (2048 : ℝ) ≤ (2 : ℝ) ^ single.emax := by
    rw [show (2048 : ℝ) = 2 ^ (11 : ℤ) by norm_num]; exact zpow_le_zpow_right₀ (by norm_num) (by decide)
  have m0 : single.Mem 0 := by simpa using hm 0 (by norm_num)
  have m1 : single.Mem 1 := by simpa using hm 1 (by norm_num)
  have m2 : single.Mem 2 := by simpa using hm 2 (by norm_num)
  have key := C109_population wide_single h R [(1, [(fin (-1 / 1000), fin 0), (fin 2, fin 2)]), (2, [(ninf, ninf), (fin 1, fin 1)])] 2 (ε := 1 / 1000) (b := 2) (B := 4)
    (by norm_num) (by norm_num) (by simp)
    (by
      intro c hc
      simp only [List.mem_cons, List.not_mem_nil, or_false] at hc
      rcases hc with rfl | rfl
      exacts [m1, m2])
    (by
      intro c hc p hp
      simp only [List.mem_cons, List.not_mem_nil, or_false] at hc
      rcases hc with rfl | rfl <;> simp only [List.mem_cons, List.not_mem_nil, or_false] at hp <;> rcases hp with rfl | rfl
      · exact ⟨Or.inr ⟨_, _, rfl, rfl, by norm_num [abs_of_pos]⟩, Or.inr ⟨0, rfl, m0⟩, fun a ha => by obtain rfl := fin.inj ha; norm_num⟩
      · exact ⟨Or.inr ⟨_, _, rfl, rfl, by norm_num⟩, Or.inr ⟨2, rfl, m2⟩, fun a ha => by obtain rfl := fin.inj ha; norm_num⟩
      · exact ⟨Or.inl ⟨rfl, rfl⟩, Or.inl rfl, fun a ha => by cases ha⟩
      · exact ⟨Or.inr ⟨_, _, rfl, rfl, by norm_num⟩, Or.inr ⟨1, rfl, m1⟩, fun a ha => by obtain rfl := fin.inj ha; norm_num⟩)
    (by
      intro c hc a ha
      simp only [List.mem_cons, List.not_mem_nil, or_false] at hc
      rcases hc with rfl | rfl
      · have e : (([(fin (-1 / 1000), fin 0), (fin 2, fin 2)] : List (XR × XR)).map (·.1)).sum = fin (-1 / 1000 + (2 + 0)) := rfl
        rw [e] at ha
        obtain rfl := fin.inj ha
        norm_num [abs_of_pos]
      · have e : (([(ninf, ninf), (fin 1, fin 1)] : List (XR × XR)).map (·.1)).sum = ninf := rfl
        rw [e] at ha; cases ha)
    (by rw [show single.p = 24 from rfl]; norm_num; linarith) _ rfl
    (by rw [show single.p = 24 from rfl]; norm_num) (by norm_num [single]) (by norm_num; linarith)
  exact within_mono key (by rw [show single.p = 24 from rfl]; norm_num)

end GW.RoundedLikelihood
