import Verif.Quant.Trainable
import Mathlib.Data.List.Nodup

/-!
# Property C84: the trainable weights of a quantize wrapper
-/

set_option linter.unusedSectionVars false
namespace Verif.Props
open Verif.Quant.Trainable

/-! ## Specification -/

/-- Weights without repetition, some of which are quantized. -/
def Spec.GoodWeights (vars quantized : List ℕ) : Prop := vars.Nodup ∧ quantized.Nodup ∧ quantized ⊆ vars

/-- A history in which nobody freezes the layer. -/
def Spec.NeverFrozen (events : List Event) : Prop := Event.setTrainable false ∉ events

/-! ## Deduplication -/

theorem Aux.dedup_append (l m : List ℕ) (acc : List ℕ) (h : ∀ x ∈ m, x ∈ acc) :
    m.foldl (fun acc x => if x ∈ acc then acc else acc ++ [x]) acc = acc := by
  induction m with
  | nil => rfl
  | cons a m ih =>
    rw [List.foldl_cons, if_pos (h a List.mem_cons_self)]
    exact ih fun x hx => h x (List.mem_cons_of_mem _ hx)

theorem Aux.dedup_fold (l acc : List ℕ) (hn : l.Nodup) (hd : ∀ x ∈ l, x ∉ acc) :
    l.foldl (fun acc x => if x ∈ acc then acc else acc ++ [x]) acc = acc ++ l := by
  induction l generalizing acc with
  | nil => simp
  | cons a l ih =>
    obtain ⟨h1, h2⟩ := List.nodup_cons.1 hn
    rw [List.foldl_cons, if_neg (hd a List.mem_cons_self), ih (acc ++ [a]) h2]
    · simp
    · intro x hx
      simp only [List.mem_append, List.mem_singleton, not_or]
      exact ⟨hd x (List.mem_cons_of_mem _ hx), fun h => h1 (h ▸ hx)⟩

theorem Aux.dedup_nodup_append (l m : List ℕ) (hn : l.Nodup) (h : m ⊆ l) : dedup (l ++ m) = l := by
  unfold dedup
  rw [List.foldl_append, Aux.dedup_fold l [] hn (by simp), List.nil_append]
  exact Aux.dedup_append l m l h

theorem Aux.dedup_mem (l : List ℕ) (x : ℕ) : x ∈ dedup l ↔ x ∈ l := by
  have : ∀ (l acc : List ℕ), x ∈ l.foldl (fun acc x => if x ∈ acc then acc else acc ++ [x]) acc ↔ x ∈ acc ∨ x ∈ l := by
    intro l
    induction l with
    | nil => simp
    | cons a l ih =>
      intro acc
      rw [List.foldl_cons, ih]
      split_ifs with h
      · simp only [List.mem_cons]
        constructor
        · rintro (h1 | h1)
          · exact .inl h1
          · exact .inr (.inr h1)
        · rintro (h1 | rfl | h1)
          · exact .inl h1
          · exact .inl h
          · exact .inr h1
      · simp only [List.mem_append, List.mem_cons, List.not_mem_nil, or_false]
        tauto
  unfold dedup
  simpa using this l []

theorem Aux.dedup_nodup (l : List ℕ) : (dedup l).Nodup := by
  have : ∀ (l acc : List ℕ), acc.Nodup → (l.foldl (fun acc x => if x ∈ acc then acc else acc ++ [x]) acc).Nodup := by
    intro l
    induction l with
    | nil => intro acc h; exact h
    | cons a l ih =>
      intro acc h
      rw [List.foldl_cons]
      split_ifs with ha
      · exact ih acc h
      · refine ih _ ?_
        rw [List.nodup_append]
        exact ⟨h, by simp, fun x hx y hy => by simp at hy; subst hy; exact fun he => ha (he ▸ hx)⟩
  exact this l [] (by simp)

/-! ## Histories -/

theorem Aux.tw_run (events : List Event) (w : Weights) (hf : Spec.NeverFrozen events) (ht : w.trainable = true) :
    (w.run events).v2 = w.v2 ∧ (w.run events).trainable = true ∧ (w.run events).own = w.own ∧
    (w.run events).quantized = w.quantized ∧
    (w.run events).layerVars = if Event.call ∈ events then w.layerVars.filter fun i => i ∉ w.quantized else w.layerVars := by
  induction events generalizing w with
  | nil => simp [Weights.run, ht]
  | cons e rest ih =>
    have hf' : Spec.NeverFrozen rest := fun h => hf (List.mem_cons_of_mem _ h)
    cases e with
    | call =>
      obtain ⟨h1, h2, h3, h4, h5⟩ := ih (w.step .call) hf' ht
      refine ⟨h1, h2, h3, h4, ?_⟩
      rw [if_pos List.mem_cons_self]
      refine h5.trans ?_
      simp only [Weights.step]
      split_ifs
      · rw [List.filter_filter]
        refine List.filter_congr fun x _ => ?_
        by_cases hx : x ∈ w.quantized <;> simp [hx]
      · rfl
    | setTrainable b =>
      have hb : b = true := by
        cases b
        · exact absurd List.mem_cons_self hf
        · rfl
      subst hb
      obtain ⟨h1, h2, h3, h4, h5⟩ := ih (w.step (.setTrainable true)) hf' rfl
      refine ⟨h1, h2, h3, h4, h5.trans ?_⟩
      by_cases hc : Event.call ∈ rest
      · rw [if_pos hc, if_pos (List.mem_cons_of_mem _ hc)]; rfl
      · rw [if_neg hc, if_neg (by simp [hc])]; rfl

/-- **C84.**  For a layer that was built before it was wrapped and that is never frozen, the trainable weights of a
`QuantizeWrapperV2` (the class `quantize_apply` uses) are at any time exactly the layer's, each once and in the
original order. -/
theorem C84_partial (vars quantized : List ℕ) (h : Spec.GoodWeights vars quantized) (events : List Event)
    (hf : Spec.NeverFrozen events) : ((build true true true vars quantized).run events).trainableWeights = vars := by
  obtain ⟨h1, h2, h3, h4, h5⟩ := Aux.tw_run events (build true true true vars quantized) hf rfl
  simp only [Weights.trainableWeights, Weights.layerTrainable]
  rw [h1, h2, h3, h5]
  simp only [build, Bool.and_self, if_true]
  rw [List.append_assoc]
  refine Aux.dedup_nodup_append _ _ h.1 ?_
  intro x hx
  rcases List.mem_append.1 hx with hx | hx
  · exact h.2.2 hx
  · split_ifs at hx
    · exact List.mem_of_mem_filter hx
    · exact hx

/-- **C84 (both classes).**  For a layer that is never frozen, whether it was built before or not, each trainable
weight of the layer is a trainable weight of the wrapper and vice versa; a `QuantizeWrapperV2` has each once; a
`QuantizeWrapper` that was called has each once, the quantized ones last. -/
theorem C84_same_weights (v2 builtBefore : Bool) (vars quantized : List ℕ) (h : Spec.GoodWeights vars quantized)
    (events : List Event) (hf : Spec.NeverFrozen events) :
    let tw := ((build v2 builtBefore true vars quantized).run events).trainableWeights
    (∀ x, x ∈ tw ↔ x ∈ vars) ∧ (v2 = true → tw.Nodup) ∧
    (v2 = false → Event.call ∈ events → tw = vars.filter (fun i => i ∉ quantized) ++ quantized ∧ tw.Nodup) := by
  obtain ⟨h1, h2, h3, h4, h5⟩ := Aux.tw_run events (build v2 builtBefore true vars quantized) hf rfl
  intro tw
  have htw : tw = if v2 then dedup ((build v2 builtBefore true vars quantized).own ++
      (if Event.call ∈ events then vars.filter (fun i => i ∉ quantized) else vars)) else
      (if Event.call ∈ events then vars.filter (fun i => i ∉ quantized) else vars) ++
        (build v2 builtBefore true vars quantized).own := by
    show Weights.trainableWeights _ = _
    simp only [Weights.trainableWeights, Weights.layerTrainable]
    rw [h1, h2, h3, h5]
    rfl
  have hown : ∀ x, x ∈ (build v2 builtBefore true vars quantized).own → x ∈ vars := by
    intro x hx
    simp only [build] at hx
    rcases List.mem_append.1 hx with hx | hx
    · split_ifs at hx
      · exact hx
      · simp at hx
    · exact h.2.2 hx
  have hq : ∀ x ∈ quantized, x ∈ (build v2 builtBefore true vars quantized).own := fun x hx =>
    List.mem_append_right _ hx
  have hlv : ∀ x, x ∈ (if Event.call ∈ events then vars.filter (fun i => i ∉ quantized) else vars) → x ∈ vars := by
    intro x hx
    split_ifs at hx
    · exact List.mem_of_mem_filter hx
    · exact hx
  have hlv' : ∀ x ∈ vars, x ∈ (if Event.call ∈ events then vars.filter (fun i => i ∉ quantized) else vars) ∨ x ∈ quantized := by
    intro x hx
    split_ifs
    · by_cases hxq : x ∈ quantized
      · exact .inr hxq
      · exact .inl (by simp [hx, hxq])
    · exact .inl hx
  refine ⟨?_, ?_, ?_⟩
  · intro x
    rw [htw]
    cases v2
    · simp only [Bool.false_eq_true, if_false, List.mem_append]
      constructor
      · rintro (hx | hx)
        · exact hlv x hx
        · exact hown x hx
      · intro hx
        rcases hlv' x hx with hx | hx
        · exact .inl hx
        · exact .inr (hq x hx)
    · simp only [if_true, Aux.dedup_mem, List.mem_append]
      constructor
      · rintro (hx | hx)
        · exact hown x hx
        · exact hlv x hx
      · intro hx
        rcases hlv' x hx with hx | hx
        · exact .inr hx
        · exact .inl (hq x hx)
  · intro hv
    rw [htw, hv, if_pos rfl]
    exact Aux.dedup_nodup _
  · intro hv hc
    have : tw = vars.filter (fun i => i ∉ quantized) ++ quantized := by
      rw [htw, hv]
      simp [hc, build]
    refine ⟨this, ?_⟩
    rw [this, List.nodup_append]
    refine ⟨h.1.filter _, h.2.1, ?_⟩
    intro a ha b hb he
    subst he
    simp at ha
    exact ha.2 hb

/-- The hypotheses are met by a layer with kernel (0), bias (1) and a second kernel (2), called and unfrozen. -/
example : Spec.GoodWeights [0, 1, 2] [0, 2] ∧ Spec.NeverFrozen [.call, .setTrainable true, .call] := by
  refine ⟨⟨by decide, by decide, by decide⟩, ?_⟩
  simp [Spec.NeverFrozen]

/-- C84 fails for a frozen layer: after `trainable = False` all its weights are still trainable weights of the
wrapper, and even if the layer was frozen before it was wrapped, its kernel (0) becomes a trainable weight. -/
theorem C84_frozen_violated :
    ((build true true true [0, 1] [0]).run [.call, .setTrainable false]).trainableWeights = [0, 1] ∧
    ((build true true false [0, 1] [0]).run [.call]).trainableWeights = [0] := by decide

/-- C84: the order is changed for a layer that was not built before (by `QuantizeWrapperV2` too), and a
`QuantizeWrapper` lists a quantized weight twice until its first call. -/
theorem C84_order_violated :
    ((build true false true [0, 1] [1]).run [.call]).trainableWeights = [1, 0] ∧
    ((build false true true [0, 1] [0]).run []).trainableWeights = [0, 1, 0] := by decide

end Verif.Props
