import Verif.Sparsity.Schedule

/-!
# Properties C01-C04: pruning schedules
-/

namespace Verif.Props
open Verif.Sparsity

/-! ## Specification (independent of the model) -/

/-- The set of steps at which a schedule with parameters `b e f` should prune: not before `b`, not
after `e` (unless `e` is negative, meaning "forever"), and a whole number of periods after `b`. -/
def Spec.PruneStep (b e f step : ℤ) : Prop :=
  ∃ k : ℕ, step = b + k * f ∧ (step ≤ e ∨ e < 0)

/-- Valid step parameters: `forever` says whether `end_step = -1` is allowed. -/
def Spec.ValidSteps (forever : Bool) (b e f : ℤ) : Prop :=
  0 ≤ b ∧ 0 < f ∧ (b ≤ e ∨ (forever = true ∧ e = -1))

/-! ## helper lemmas -/

theorem Aux.validateStep_ok (b e f : ℤ) (a : Bool) :
    validateStep b e f a = .ok () ↔ Spec.ValidSteps a b e f := by
  unfold validateStep Spec.ValidSteps
  cases a <;> split_ifs <;> simp_all <;> omega

theorem Aux.validateSparsity_ok (s : ℝ) :
    validateSparsity s = .ok () ↔ 0 ≤ s ∧ s < 1 := by
  unfold validateSparsity
  by_cases h : 0 ≤ s ∧ s < 1
  · simp [h, pure, Except.pure]
  · simp [h, throw, throwThe, MonadExceptOf.throw]

theorem Aux.constant_new {t : ℝ} {b e f : ℤ} {c : ConstantSparsity} :
    ConstantSparsity.new t b e f = .ok c ↔
      Spec.ValidSteps true b e f ∧ (0 ≤ t ∧ t < 1) ∧ c = ⟨t, b, e, f⟩ := by
  rw [← Aux.validateStep_ok, ← Aux.validateSparsity_ok]
  unfold ConstantSparsity.new
  cases h1 : validateStep b e f true <;> cases h2 : validateSparsity t <;>
    simp [bind, Except.bind, pure, Except.pure, eq_comm]

theorem Aux.poly_new {i fi pw : ℝ} {b e f : ℤ} {d : PolynomialDecay} :
    PolynomialDecay.new i fi b e pw f = .ok d ↔
      Spec.ValidSteps false b e f ∧ (0 ≤ i ∧ i < 1) ∧ (0 ≤ fi ∧ fi < 1) ∧
        d = ⟨i, fi, b, e, pw, f⟩ := by
  rw [← Aux.validateStep_ok, ← Aux.validateSparsity_ok, ← Aux.validateSparsity_ok]
  unfold PolynomialDecay.new
  cases h1 : validateStep b e f false <;> cases h2 : validateSparsity i <;>
    cases h3 : validateSparsity fi <;>
    simp [bind, Except.bind, pure, Except.pure, eq_comm]

theorem Aux.should_iff (b e f step : ℤ) (hf : 0 < f) :
    shouldPruneInStep step b e f = true ↔ Spec.PruneStep b e f step := by
  unfold shouldPruneInStep Spec.PruneStep
  simp only [Bool.and_eq_true, decide_eq_true_eq, Bool.or_eq_true]
  rw [Int.fmod_eq_emod_of_nonneg _ hf.le]
  constructor
  · rintro ⟨⟨h1, h2⟩, h3⟩
    obtain ⟨k, hk⟩ := Int.dvd_of_emod_eq_zero h3
    have hk0 : 0 ≤ k := by
      by_contra hneg
      have : k ≤ -1 := by omega
      nlinarith
    refine ⟨k.toNat, ?_, h2⟩
    rw [Int.toNat_of_nonneg hk0]
    linarith [mul_comm f k]
  · rintro ⟨k, h1, h2⟩
    refine ⟨⟨?_, h2⟩, ?_⟩
    · have : 0 ≤ (k : ℤ) * f := by positivity
      omega
    · rw [h1]; simp

/-! ## C01 -/

/-- **C01.** `ConstantSparsity` asks to prune exactly at the steps `begin, begin+freq, ...` inside
the window. Holds for every schedule the constructor accepts. -/
theorem C01_constant_window {t : ℝ} {b e f : ℤ} {c : ConstantSparsity}
    (h : ConstantSparsity.new t b e f = .ok c) (step : ℤ) :
    (c.call step).1 = true ↔ Spec.PruneStep b e f step := by
  obtain ⟨⟨_, hf, _⟩, _, rfl⟩ := Aux.constant_new.1 h
  exact Aux.should_iff b e f step hf

/-- **C01.** The same for `PolynomialDecay`, which never runs forever. -/
theorem C01_polynomial_window {i fi pw : ℝ} {b e f : ℤ} {d : PolynomialDecay}
    (h : PolynomialDecay.new i fi b e pw f = .ok d) (step : ℤ) :
    (d.call step).1 = true ↔ Spec.PruneStep b e f step ∧ step ≤ e := by
  obtain ⟨⟨hb, hf, he⟩, _, _, rfl⟩ := Aux.poly_new.1 h
  have he' : b ≤ e := by simpa using he
  refine (Aux.should_iff b e f step hf).trans ⟨fun hp => ⟨hp, ?_⟩, fun hp => hp.1⟩
  obtain ⟨k, hk, h1 | h1⟩ := hp <;> omega

/-- The hypotheses of C01 are met, and both answers occur. -/
example : ∃ c, ConstantSparsity.new (1/2) 10 (-1) 5 = .ok c ∧
    (c.call 25).1 = true ∧ (c.call 26).1 = false ∧ (c.call 5).1 = false := by
  refine ⟨⟨1/2, 10, -1, 5⟩, Aux.constant_new.2 ⟨⟨by norm_num, by norm_num, by norm_num⟩,
    ⟨by norm_num, by norm_num⟩, rfl⟩, by decide, by decide, by decide⟩

/-! ## C02 -/

/-- **C02.** `ConstantSparsity(...)` succeeds exactly on valid parameters, and the object carries
those parameters. -/
theorem C02_constant_accepts (t : ℝ) (b e f : ℤ) :
    (∃ c, ConstantSparsity.new t b e f = .ok c) ↔
      (0 ≤ b ∧ 0 < f ∧ (b ≤ e ∨ e = -1)) ∧ 0 ≤ t ∧ t < 1 := by
  simp only [Aux.constant_new, Spec.ValidSteps]
  constructor
  · rintro ⟨c, h1, h2, -⟩; exact ⟨by simpa using h1, h2⟩
  · rintro ⟨h1, h2⟩; exact ⟨_, by simpa using h1, h2, rfl⟩

/-- **C02.** `PolynomialDecay(...)` succeeds exactly on valid parameters; `end_step = -1` and any
other negative end step are rejected. -/
theorem C02_polynomial_accepts (i fi pw : ℝ) (b e f : ℤ) :
    (∃ d, PolynomialDecay.new i fi b e pw f = .ok d) ↔
      (0 ≤ b ∧ 0 < f ∧ b ≤ e) ∧ (0 ≤ i ∧ i < 1) ∧ (0 ≤ fi ∧ fi < 1) := by
  simp only [Aux.poly_new, Spec.ValidSteps]
  constructor
  · rintro ⟨c, h1, h2, h3, -⟩; exact ⟨by simpa using h1, h2, h3⟩
  · rintro ⟨h1, h2, h3⟩; exact ⟨_, by simpa using h1, h2, h3, rfl⟩

/-- **C02.** Reloading a schedule from its own config always succeeds and gives an identical
schedule. -/
theorem C02_constant_reload {t : ℝ} {b e f : ℤ} {c : ConstantSparsity}
    (h : ConstantSparsity.new t b e f = .ok c) : c.reload = .ok c := by
  obtain ⟨h1, h2, rfl⟩ := Aux.constant_new.1 h
  exact Aux.constant_new.2 ⟨h1, h2, rfl⟩

theorem C02_polynomial_reload {i fi pw : ℝ} {b e f : ℤ} {d : PolynomialDecay}
    (h : PolynomialDecay.new i fi b e pw f = .ok d) : d.reload = .ok d := by
  obtain ⟨h1, h2, h3, rfl⟩ := Aux.poly_new.1 h
  exact Aux.poly_new.2 ⟨h1, h2, h3, rfl⟩

/-- **C02.** An accepted `ConstantSparsity` always requests the sparsity it was given, in `[0,1)`. -/
theorem C02_constant_value {t : ℝ} {b e f : ℤ} {c : ConstantSparsity}
    (h : ConstantSparsity.new t b e f = .ok c) (step : ℤ) :
    (c.call step).2 = t ∧ 0 ≤ t ∧ t < 1 := by
  obtain ⟨_, h2, rfl⟩ := Aux.constant_new.1 h
  exact ⟨rfl, h2⟩

/-! ## C03 -/

/-- Value of an accepted ramp as an explicit convex combination, with weight
`(1-p)^power` in `[0,1]`. -/
theorem Aux.poly_value {i fi pw : ℝ} {b e f : ℤ} {d : PolynomialDecay}
    (h : PolynomialDecay.new i fi b e pw f = .ok d) (hbe : b < e) (step : ℤ) :
    (d.call step).2 =
      some ((i - fi) * (1 - min 1 (max 0 (((step - b : ℤ) : ℝ) / ((e - b : ℤ) : ℝ)))) ^ pw + fi) := by
  obtain ⟨h1, h2, h3, rfl⟩ := Aux.poly_new.1 h
  simp [PolynomialDecay.call, PolynomialDecay.progress, hbe.ne']

/-- **C03 (start).** At and before `begin_step` the requested sparsity is the initial one. -/
theorem C03_start {i fi pw : ℝ} {b e f : ℤ} {d : PolynomialDecay}
    (h : PolynomialDecay.new i fi b e pw f = .ok d) (hbe : b < e) (step : ℤ) (hs : step ≤ b) :
    (d.call step).2 = some i := by
  rw [Aux.poly_value h hbe]
  have h1 : ((step - b : ℤ) : ℝ) / ((e - b : ℤ) : ℝ) ≤ 0 := by
    apply div_nonpos_of_nonpos_of_nonneg
    · exact_mod_cast (by omega : step - b ≤ 0)
    · exact_mod_cast (by omega : 0 ≤ e - b)
  rw [max_eq_left h1]
  simp

/-- **C03 (end).** At and after `end_step` it is the final one (for any positive power). -/
theorem C03_end {i fi pw : ℝ} {b e f : ℤ} {d : PolynomialDecay}
    (h : PolynomialDecay.new i fi b e pw f = .ok d) (hbe : b < e) (hpw : 0 < pw)
    (step : ℤ) (hs : e ≤ step) : (d.call step).2 = some fi := by
  rw [Aux.poly_value h hbe]
  have h1 : 1 ≤ ((step - b : ℤ) : ℝ) / ((e - b : ℤ) : ℝ) := by
    rw [le_div_iff₀ (by exact_mod_cast (by omega : 0 < e - b))]
    rw [one_mul]; exact_mod_cast (by omega : e - b ≤ step - b)
  have h2 : max (0:ℝ) (((step - b : ℤ) : ℝ) / ((e - b : ℤ) : ℝ)) =
      ((step - b : ℤ) : ℝ) / ((e - b : ℤ) : ℝ) := max_eq_right (by linarith)
  rw [h2, min_eq_left h1]
  simp [Real.zero_rpow hpw.ne']

theorem Aux.weight_range (x pw : ℝ) (hpw : 0 ≤ pw) :
    0 ≤ (1 - min 1 (max 0 x)) ^ pw ∧ (1 - min 1 (max 0 x)) ^ pw ≤ 1 := by
  have h0 : 0 ≤ 1 - min 1 (max 0 x) := by linarith [min_le_left 1 (max 0 x)]
  have h1 : 1 - min 1 (max 0 x) ≤ 1 := by
    have : 0 ≤ min 1 (max 0 x) := le_min zero_le_one (le_max_left _ _)
    linarith
  exact ⟨Real.rpow_nonneg h0 _, Real.rpow_le_one h0 h1 hpw⟩

/-- **C03 (range).** The requested sparsity always lies between the initial and the final one;
in particular it is in `[0,1)`. -/
theorem C03_range {i fi pw : ℝ} {b e f : ℤ} {d : PolynomialDecay}
    (h : PolynomialDecay.new i fi b e pw f = .ok d) (hbe : b < e) (hpw : 0 ≤ pw) (step : ℤ) :
    ∃ s, (d.call step).2 = some s ∧ min i fi ≤ s ∧ s ≤ max i fi ∧ 0 ≤ s ∧ s < 1 := by
  obtain ⟨_, ⟨hi0, hi1⟩, ⟨hf0, hf1⟩, _⟩ := Aux.poly_new.1 h
  refine ⟨_, Aux.poly_value h hbe step, ?_⟩
  obtain ⟨w0, w1⟩ := Aux.weight_range (((step - b : ℤ) : ℝ) / ((e - b : ℤ) : ℝ)) pw hpw
  generalize (1 - min 1 (max 0 (((step - b : ℤ) : ℝ) / ((e - b : ℤ) : ℝ)))) ^ pw = w at w0 w1 ⊢
  have hlo : min i fi ≤ (i - fi) * w + fi := by
    rcases le_total i fi with hle | hle
    · rw [min_eq_left hle]; nlinarith
    · rw [min_eq_right hle]; nlinarith
  have hhi : (i - fi) * w + fi ≤ max i fi := by
    rcases le_total i fi with hle | hle
    · rw [max_eq_right hle]; nlinarith
    · rw [max_eq_left hle]; nlinarith
  exact ⟨hlo, hhi, le_trans (le_min hi0 hf0) hlo, lt_of_le_of_lt hhi (max_lt hi1 hf1)⟩

/-- **C02.** An accepted `PolynomialDecay` whose window is not a single step and whose power is not
negative requests, at every step whatsoever, a number in `[0,1)`.  (`C04_violated` and
`C03_negative_power_violated` show what happens without the two conditions.) -/
theorem C02_polynomial_value {i fi pw : ℝ} {b e f : ℤ} {d : PolynomialDecay}
    (h : PolynomialDecay.new i fi b e pw f = .ok d) (hbe : b < e) (hpw : 0 ≤ pw) (step : ℤ) :
    ∃ s, (d.call step).2 = some s ∧ 0 ≤ s ∧ s < 1 := by
  obtain ⟨s, hs, -, -, h0, h1⟩ := C03_range h hbe hpw step
  exact ⟨s, hs, h0, h1⟩

example : ∃ d, PolynomialDecay.new (1/4) (1/2) 10 100 3 10 = .ok d ∧
    ∃ s, (d.call 55).2 = some s ∧ 0 ≤ s ∧ s < 1 := by
  have hh : PolynomialDecay.new (1/4) (1/2) 10 100 3 10 = .ok ⟨1/4, 1/2, 10, 100, 3, 10⟩ :=
    Aux.poly_new.2 ⟨⟨by norm_num, by norm_num, by norm_num⟩,
    ⟨by norm_num, by norm_num⟩, ⟨by norm_num, by norm_num⟩, rfl⟩
  exact ⟨_, hh, C02_polynomial_value hh (by norm_num) (by norm_num) 55⟩

/-- **C03 (monotone).** When the final sparsity is at least the initial one (the usual case) the
requested sparsity never decreases with the step; when it is at most the initial one it never
increases. -/
theorem C03_monotone {i fi pw : ℝ} {b e f : ℤ} {d : PolynomialDecay}
    (h : PolynomialDecay.new i fi b e pw f = .ok d) (hbe : b < e) (hpw : 0 ≤ pw)
    {s₁ s₂ : ℤ} (hs : s₁ ≤ s₂) :
    ∃ v₁ v₂, (d.call s₁).2 = some v₁ ∧ (d.call s₂).2 = some v₂ ∧
      (i ≤ fi → v₁ ≤ v₂) ∧ (fi ≤ i → v₂ ≤ v₁) := by
  refine ⟨_, _, Aux.poly_value h hbe s₁, Aux.poly_value h hbe s₂, ?_⟩
  have hq : ((s₁ - b : ℤ) : ℝ) / ((e - b : ℤ) : ℝ) ≤ ((s₂ - b : ℤ) : ℝ) / ((e - b : ℤ) : ℝ) := by
    apply div_le_div_of_nonneg_right
    · exact_mod_cast (by omega : s₁ - b ≤ s₂ - b)
    · exact_mod_cast (by omega : 0 ≤ e - b)
  set x₁ := ((s₁ - b : ℤ) : ℝ) / ((e - b : ℤ) : ℝ)
  set x₂ := ((s₂ - b : ℤ) : ℝ) / ((e - b : ℤ) : ℝ)
  have hw : (1 - min 1 (max 0 x₂)) ^ pw ≤ (1 - min 1 (max 0 x₁)) ^ pw := by
    apply Real.rpow_le_rpow
    · linarith [min_le_left 1 (max 0 x₂)]
    · have := min_le_min_left (1:ℝ) (max_le_max_left (0:ℝ) hq)
      linarith
    · exact hpw
  constructor <;> intro hle <;> nlinarith

/-- **C03 (strict).** Strictly inside the window the ramp is strict: a larger step gives a strictly
larger sparsity (positive power, initial < final). Guards against a ramp that is constant. -/
theorem C03_strict {i fi pw : ℝ} {b e f : ℤ} {d : PolynomialDecay}
    (h : PolynomialDecay.new i fi b e pw f = .ok d) (hbe : b < e) (hpw : 0 < pw) (hif : i < fi)
    {s₁ s₂ : ℤ} (h1 : b ≤ s₁) (hs : s₁ < s₂) (h2 : s₂ ≤ e) :
    ∃ v₁ v₂, (d.call s₁).2 = some v₁ ∧ (d.call s₂).2 = some v₂ ∧ v₁ < v₂ := by
  refine ⟨_, _, Aux.poly_value h hbe s₁, Aux.poly_value h hbe s₂, ?_⟩
  have hpos : (0:ℝ) < ((e - b : ℤ) : ℝ) := by exact_mod_cast (by omega : 0 < e - b)
  have hq : ((s₁ - b : ℤ) : ℝ) / ((e - b : ℤ) : ℝ) < ((s₂ - b : ℤ) : ℝ) / ((e - b : ℤ) : ℝ) := by
    apply div_lt_div_of_pos_right _ hpos
    exact_mod_cast (by omega : s₁ - b < s₂ - b)
  have e1 : 0 ≤ ((s₁ - b : ℤ) : ℝ) / ((e - b : ℤ) : ℝ) := by
    apply div_nonneg _ hpos.le; exact_mod_cast (by omega : 0 ≤ s₁ - b)
  have e2 : ((s₂ - b : ℤ) : ℝ) / ((e - b : ℤ) : ℝ) ≤ 1 := by
    rw [div_le_one hpos]; exact_mod_cast (by omega : s₂ - b ≤ e - b)
  set x₁ := ((s₁ - b : ℤ) : ℝ) / ((e - b : ℤ) : ℝ)
  set x₂ := ((s₂ - b : ℤ) : ℝ) / ((e - b : ℤ) : ℝ)
  have hw : (1 - min 1 (max 0 x₂)) ^ pw < (1 - min 1 (max 0 x₁)) ^ pw := by
    apply Real.rpow_lt_rpow
    · linarith [min_le_left 1 (max 0 x₂)]
    · rw [max_eq_right e1, max_eq_right (e1.trans hq.le), min_eq_right e2,
        min_eq_right (hq.le.trans e2)]
      linarith
    · exact hpw
  nlinarith

/-- Non-vacuity of C03: the default cubic ramp from 0 to 1/2 on [0,100] has value 7/16 half-way. -/
example : ∃ d, PolynomialDecay.new 0 (1/2) 0 100 3 10 = .ok d ∧ (d.call 50).2 = some (7/16) := by
  refine ⟨⟨0, 1/2, 0, 100, 3, 10⟩, Aux.poly_new.2 ⟨⟨by norm_num, by norm_num, by norm_num⟩,
    ⟨by norm_num, by norm_num⟩, ⟨by norm_num, by norm_num⟩, rfl⟩, ?_⟩
  have hh : PolynomialDecay.new 0 (1/2) 0 100 3 10 = .ok ⟨0, 1/2, 0, 100, 3, 10⟩ :=
    Aux.poly_new.2 ⟨⟨by norm_num, by norm_num, by norm_num⟩,
    ⟨by norm_num, by norm_num⟩, ⟨by norm_num, by norm_num⟩, rfl⟩
  rw [Aux.poly_value hh (by norm_num)]
  have h3 : (3:ℝ) = ((3:ℕ):ℝ) := by norm_num
  rw [h3, Real.rpow_natCast]
  norm_num

/-- The positivity of the power in `C03_end` is needed: the (unvalidated) power 0 freezes the
schedule at the initial sparsity. -/
theorem C03_power_zero_violated : ∃ d, PolynomialDecay.new 0 (1/2) 0 100 0 10 = .ok d ∧
    (d.call 100).2 = some 0 := by
  have hh : PolynomialDecay.new 0 (1/2) 0 100 0 10 = .ok ⟨0, 1/2, 0, 100, 0, 10⟩ :=
    Aux.poly_new.2 ⟨⟨by norm_num, by norm_num, by norm_num⟩,
    ⟨by norm_num, by norm_num⟩, ⟨by norm_num, by norm_num⟩, rfl⟩
  refine ⟨_, hh, ?_⟩
  rw [Aux.poly_value hh (by norm_num)]
  norm_num

/-- The non-negativity of the power in `C03_range` is needed: the (unvalidated) power `-1` makes the
accepted schedule from 1/2 to 1/4 request sparsity 2.75 at step 90. -/
theorem C03_negative_power_violated : ∃ d, PolynomialDecay.new (1/2) (1/4) 0 100 (-1) 10 = .ok d ∧
    (d.call 90).2 = some (11/4) := by
  have hh : PolynomialDecay.new (1/2) (1/4) 0 100 (-1) 10 = .ok ⟨1/2, 1/4, 0, 100, -1, 10⟩ :=
    Aux.poly_new.2 ⟨⟨by norm_num, by norm_num, by norm_num⟩,
    ⟨by norm_num, by norm_num⟩, ⟨by norm_num, by norm_num⟩, rfl⟩
  refine ⟨_, hh, ?_⟩
  rw [Aux.poly_value hh (by norm_num), Real.rpow_neg_one]
  norm_num

/-! ## C04 -/

/-- **C04 (partial).** With `begin_step < end_step` the ramp is defined at every step.  Missing:
`begin_step = end_step`, which the constructor also accepts, see `C04_violated`. -/
theorem C04_defined_partial {i fi pw : ℝ} {b e f : ℤ} {d : PolynomialDecay}
    (h : PolynomialDecay.new i fi b e pw f = .ok d) (hbe : b < e) (step : ℤ) :
    ∃ s, (d.call step).2 = some s := ⟨_, Aux.poly_value h hbe step⟩

/-- **C04 (violated).** Whenever `begin_step = end_step` the accepted schedule asks to prune at
exactly one step, and there its sparsity is `0/0`. -/
theorem C04_violated {i fi pw : ℝ} {b f : ℤ} {d : PolynomialDecay}
    (h : PolynomialDecay.new i fi b b pw f = .ok d) (step : ℤ) :
    (d.call step).1 = true ↔ (d.call step).2 = none := by
  rw [C01_polynomial_window h]
  obtain ⟨⟨hb, hf, he⟩, h2, h3, rfl⟩ := Aux.poly_new.1 h
  have key : (Spec.PruneStep b b f step ∧ step ≤ b) ↔ step = b := by
    constructor
    · rintro ⟨⟨k, hk, -⟩, hle⟩
      have : 0 ≤ (k:ℤ) * f := by positivity
      omega
    · rintro rfl; exact ⟨⟨0, by simp, Or.inl le_rfl⟩, le_rfl⟩
  rw [key]
  rcases lt_trichotomy step b with hlt | heq | hgt
  · simp [PolynomialDecay.call, PolynomialDecay.progress, hlt, hlt.ne]
  · simp [PolynomialDecay.call, PolynomialDecay.progress, heq]
  · simp [PolynomialDecay.call, PolynomialDecay.progress, hgt, hgt.ne', not_lt.2 hgt.le]

/-- Such a schedule is accepted. -/
example : ∃ d, PolynomialDecay.new 0 (1/2) 5 5 3 1 = .ok d := by
  rw [C02_polynomial_accepts]; norm_num

end Verif.Props
