import Verif.Compression.Optimize
import Mathlib.Data.List.Basic
import Mathlib.Data.List.Nodup

/-!
# C64: the weights of layers for compression aware training and compressed inference
-/

set_option linter.unusedSectionVars false

namespace Verif.Props
open Verif.Compression

variable {V S : Type} [DecidableEq S]

/-! ## Specification -/

/-- The compressed weights of a trained layer are its kernel, or kernel and bias, or nothing, each
with at least one training weight, and no name occurs twice. -/
structure Spec.Compressed (l : Wrapped V) : Prop where
  names : l.own.map (·.1) <+: ["kernel", "bias"]
  groups : ∀ e ∈ l.own, e.2 ≠ []
  distinct : (l.own.map (·.1) ++ l.inner.map (·.1)).Nodup

/-! ## Helper lemmas -/

theorem Aux.lookup_of_pair {W : Type} (l : List (String × W)) (hd : (l.map (·.1)).Nodup)
    {n : String} {v : W} (h : (n, v) ∈ l) : l.lookup n = some v := by
  induction l with
  | nil => simp at h
  | cons e l ih =>
    obtain ⟨k, x⟩ := e
    simp only [List.map_cons, List.nodup_cons] at hd
    rcases List.mem_cons.1 h with h' | h'
    · obtain ⟨rfl, rfl⟩ := Prod.mk.inj h'
      simp
    · have hne : n ≠ k := by
        rintro rfl
        exact hd.1 (List.mem_map.2 ⟨(n, v), h', rfl⟩)
      rw [List.lookup_cons]
      have : (n == k) = false := by simpa using hne
      rw [this]
      exact ih hd.2 h'

theorem Aux.lookup_none {W : Type} (l : List (String × W)) {n : String}
    (h : n ∉ l.map (·.1)) : l.lookup n = none := by
  rw [List.lookup_eq_none_iff]
  intro e he
  have : e.1 ≠ n := fun e' => h (List.mem_map.2 ⟨e, he, e'⟩)
  simpa using fun h => this h.symm

theorem Aux.lookup_map {W X : Type} (l : List (String × W)) (f : W → X) (n : String) :
    (l.map fun e => (e.1, f e.2)).lookup n = (l.lookup n).map f := by
  induction l with
  | nil => rfl
  | cons e l ih =>
    rw [List.map_cons, List.lookup_cons, List.lookup_cons]
    cases n == e.1
    · exact ih
    · rfl

theorem Aux.lookup_bias {W : Type} (w : W) : List.lookup "bias" [("kernel", w)] = none := by
  rw [List.lookup_cons]
  rfl

theorem Aux.prefix_cases {l : List String} (h : l <+: ["kernel", "bias"]) :
    l = [] ∨ l = ["kernel"] ∨ l = ["kernel", "bias"] := by
  rcases l with _ | ⟨a, _ | ⟨b, _ | ⟨c, l⟩⟩⟩
  · simp
  · simp [List.prefix_cons_iff] at h
    simp [h]
  · simp [List.prefix_cons_iff] at h
    simp [h]
  · have := h.length_le
    simp at this

/-! ## Training layers -/

/-- **C64 (training).**  If the algorithm compresses one of the weights of a `Conv2D` or `Dense`
layer, the new layer computes with the projection of the initial training weights for every
compressed weight and with the pretrained value for every other weight. -/
theorem C64_training_partial (alg : Compressor V) (fresh : String → V) (comp : List String)
    (layer : List (String × V)) (hd : (layer.map (·.1)).Nodup)
    (hc : ∃ e ∈ layer, e.1 ∈ comp) :
    ∃ l, createTraining alg fresh true comp layer = .ok l ∧ ∀ n v, (n, v) ∈ layer →
      l.trainingWeight alg n = some (if n ∈ comp then alg.project (alg.init v) else v) := by
  obtain ⟨e, he, hec⟩ := hc
  have hany : (layer.any fun e => decide (e.1 ∈ comp)) = true :=
    List.any_eq_true.2 ⟨e, he, decide_eq_true hec⟩
  refine ⟨_, by rw [createTraining, if_pos hany, if_pos rfl], fun n v hm => ?_⟩
  simp only [Wrapped.trainingWeight]
  rw [Aux.lookup_map (layer.filter fun e => e.1 ∈ comp) alg.init]
  have hsub : ∀ p : String × V → Bool, ((layer.filter p).map (·.1)).Nodup := fun p =>
    hd.sublist ((List.filter_sublist).map _)
  by_cases hn : n ∈ comp
  · rw [Aux.lookup_of_pair _ (hsub _) (List.mem_filter.2 ⟨hm, decide_eq_true hn⟩), if_pos hn]
    rfl
  · rw [Aux.lookup_none (n := n)]
    · rw [Aux.lookup_of_pair _ (hsub _) (List.mem_filter.2 ⟨hm, decide_eq_true hn⟩), if_neg hn]
      rfl
    · intro h
      obtain ⟨x, hx, rfl⟩ := List.mem_map.1 h
      exact hn (of_decide_eq_true (List.mem_filter.1 hx).2)

/-- **C64 (violated: pretrained weights).**  A layer without compressible weights (a batch
normalization, say) loses its pretrained weights: the new layer computes with freshly initialized
ones. -/
theorem C64_training_violated (alg : Compressor V) (fresh : String → V) (cd : Bool)
    (comp : List String) (layer : List (String × V)) (hd : (layer.map (·.1)).Nodup)
    (hc : ∀ e ∈ layer, e.1 ∉ comp) :
    ∃ l, createTraining alg fresh cd comp layer = .ok l ∧
      ∀ n v, (n, v) ∈ layer → l.trainingWeight alg n = some (fresh n) := by
  have hany : ¬ (layer.any fun e => decide (e.1 ∈ comp)) = true := by
    rw [List.any_eq_true]
    rintro ⟨e, he, h⟩
    exact hc e he (of_decide_eq_true h)
  refine ⟨_, by rw [createTraining, if_neg hany], fun n v hm => ?_⟩
  simp only [Wrapped.trainingWeight, List.lookup_nil, Option.map_none, Option.none_or]
  refine Aux.lookup_of_pair _ ?_ (List.mem_map.2 ⟨(n, v), hm, rfl⟩)
  rw [List.map_map]
  exact hd

/-- **C64 (violated: other layers).**  A layer that is neither `Conv2D` nor `Dense` cannot be
trained if the algorithm compresses one of its weights (EPR and `Conv1D`). -/
theorem C64_conv1d_violated (alg : Compressor V) (fresh : String → V) (comp : List String)
    (layer : List (String × V)) (hc : ∃ e ∈ layer, e.1 ∈ comp) :
    ∃ e, createTraining alg fresh false comp layer = .error e := by
  obtain ⟨e, he, hec⟩ := hc
  have hany : (layer.any fun e => decide (e.1 ∈ comp)) = true :=
    List.any_eq_true.2 ⟨e, he, decide_eq_true hec⟩
  exact ⟨_, by rw [createTraining, if_pos hany]; rfl⟩

/-! ## Inference layers -/

/-- **C64 (inference).**  If a trained layer has no weights at all or exactly two (counting each
compressed weight once), the inference layer computes with the decompressed compressed values for
every compressed weight and with the trained value for every other weight.  `fresh` are the initial
values of a new layer, which have the same shapes. -/
theorem C64_inference_partial (shape : V → S) (alg : Compressor V) (fresh : String → V)
    (l : Wrapped V) (hl : Spec.Compressed l)
    (hfresh : ∀ e ∈ l.inner, shape (fresh e.1) = shape e.2)
    (htwo : l.own.length + l.inner.length = 0 ∨ l.own.length + l.inner.length = 2) :
    ∃ l', createInference shape alg fresh l = .ok l' ∧
      (∀ n ts, (n, ts) ∈ l.own →
        l'.inferenceWeight alg n = some (alg.decompress (alg.compress ts))) ∧
      (∀ n v, (n, v) ∈ l.inner → l'.inferenceWeight alg n = some v) := by
  obtain ⟨own, inner⟩ := l
  obtain ⟨hnames, hgroups, hdist⟩ := hl
  simp only at *
  rcases Aux.prefix_cases hnames with h | h | h
  · -- nothing compressed
    obtain rfl : own = [] := by simpa using h
    rcases inner with _ | ⟨⟨n1, v1⟩, _ | ⟨⟨n2, v2⟩, _ | ⟨e, inner⟩⟩⟩
    · refine ⟨⟨[], []⟩, by simp [createInference, Wrapped.getWeights], ?_, ?_⟩ <;> simp
    · simp at htwo
    · have e1 := hfresh (n1, v1) (by simp)
      have e2 := hfresh (n2, v2) (by simp)
      have hne : n1 ≠ n2 := by
        intro h'
        simp [h'] at hdist
      refine ⟨⟨[], [(n1, v1), (n2, v2)]⟩, ?_, by simp, ?_⟩
      · simp only at e1 e2
        simp [createInference, Wrapped.getWeights, mapInference, Wrapped.setWeights, regroup, e1,
          e2]
      · intro n v hm
        simp only [Wrapped.inferenceWeight, List.lookup_nil, Option.map_none, Option.none_or]
        exact Aux.lookup_of_pair _ (by simpa using hne) hm
    · simp at htwo
  · -- the kernel is compressed
    rcases own with _ | ⟨⟨k, ts⟩, _ | ⟨e, own⟩⟩
    · simp at h
    · obtain rfl : k = "kernel" := by simpa using h
      rcases inner with _ | ⟨⟨n1, v1⟩, _ | ⟨e, inner⟩⟩
      · simp at htwo
      · have e1 := hfresh (n1, v1) (by simp)
        have hne : n1 ≠ "kernel" := by
          rintro rfl
          simp at hdist
        refine ⟨⟨[("kernel", alg.compress ts)], [(n1, v1)]⟩, ?_, ?_, ?_⟩
        · simp only at e1
          simp [createInference, Wrapped.getWeights, mapInference, Wrapped.setWeights, regroup, e1,
            Aux.lookup_bias]
        · intro n ts' hm
          obtain ⟨rfl, rfl⟩ : n = "kernel" ∧ ts' = ts := by simpa using hm
          simp [Wrapped.inferenceWeight]
        · intro n v hm
          obtain ⟨rfl, rfl⟩ : n = n1 ∧ v = v1 := by simpa using hm
          have : (n == "kernel") = false := by simpa using hne
          simp [Wrapped.inferenceWeight, List.lookup_cons, this]
      · simp at htwo
        omega
    · simp at h
  · -- kernel and bias are compressed
    rcases own with _ | ⟨⟨k, ts⟩, _ | ⟨⟨b, us⟩, _ | ⟨e, own⟩⟩⟩
    · simp at h
    · simp at h
    · obtain ⟨rfl, rfl⟩ : k = "kernel" ∧ b = "bias" := by simpa using h
      obtain rfl : inner = [] := by simpa using htwo
      have hts := hgroups ("kernel", ts) (by simp)
      have hlk : (("bias" : String) == "kernel") = false := by decide
      refine ⟨⟨[("kernel", alg.compress ts), ("bias", alg.compress us)], []⟩, ?_, ?_, by simp⟩
      · simp only [ne_eq] at hts
        simp [createInference, Wrapped.getWeights, mapInference, Wrapped.setWeights, regroup, hts,
          List.lookup_cons, hlk]
      · intro n ts' hm
        rcases List.mem_cons.1 hm with hm | hm
        · obtain ⟨rfl, rfl⟩ : n = "kernel" ∧ ts' = ts := by simpa using hm
          simp [Wrapped.inferenceWeight]
        · obtain ⟨rfl, rfl⟩ : n = "bias" ∧ ts' = us := by simpa using hm
          simp [Wrapped.inferenceWeight, List.lookup_cons, hlk]
    · simp at h

theorem Aux.regroup_shapes (shape : V → S) :
    ∀ (own : List (String × List V)) (vs : List V) (rest : List S),
      vs.map shape = (own.flatMap (·.2)).map shape ++ rest →
      (regroup own vs).1.map (fun e => (e.1, e.2.map shape)) =
        own.map (fun e => (e.1, e.2.map shape)) ∧ (regroup own vs).2.map shape = rest
  | [], vs, rest, h => by simpa [regroup] using h
  | (n, g) :: own, vs, rest, h => by
    have hlen : g.length ≤ vs.length := by
      have := congrArg List.length h
      simp at this
      omega
    rw [List.flatMap_cons, List.map_append, List.append_assoc] at h
    have h1 : (vs.take g.length).map shape = g.map shape := by
      have := congrArg (List.take g.length) h
      rw [List.take_append_of_le_length (by simp), ← List.map_take, ← List.map_take,
        List.take_length] at this
      exact this
    have h2 : (vs.drop g.length).map shape = (own.flatMap (·.2)).map shape ++ rest := by
      have := congrArg (List.drop g.length) h
      rw [← List.map_drop, List.drop_append_of_le_length (by simp), ← List.map_drop,
        List.drop_length] at this
      exact this
    obtain ⟨i1, i2⟩ := Aux.regroup_shapes shape own (vs.drop g.length) rest h2
    refine ⟨?_, i2⟩
    simp only [regroup, List.map_cons, i1, h1]

/-- **C64 (shapes are checked).**  Whatever the layer and the algorithm: an inference layer that is
returned has the weights the new layer was built with, under the same names and with the same
shapes.  A value is never put into a variable of another shape. -/
theorem C64_shapes_checked (shape : V → S) (alg : Compressor V) (fresh : String → V)
    (l l' : Wrapped V) (hok : createInference shape alg fresh l = .ok l') :
    l'.own.map (fun e => (e.1, e.2.map shape)) =
        l.own.map (fun e => (e.1, (alg.compress e.2).map shape)) ∧
      l'.inner.map (fun e => (e.1, shape e.2)) =
        l.inner.map (fun e => (e.1, shape (fresh e.1))) := by
  unfold createInference at hok
  by_cases h0 : l.getWeights = []
  · rw [if_pos h0] at hok
    cases hok
    simp
  · rw [if_neg h0] at hok
    cases hm : mapInference alg l.own l.getWeights ["kernel", "bias"] 0 with
    | error e => rw [hm] at hok; cases hok
    | ok vs =>
      rw [hm] at hok
      dsimp only at hok
      unfold Wrapped.setWeights at hok
      split at hok
      · rename_i hs
        cases hok
        simp only [Wrapped.getWeights, List.map_append] at hs
        obtain ⟨i1, i2⟩ := Aux.regroup_shapes shape _ _ _ hs
        refine ⟨by rw [i1, List.map_map]; rfl, ?_⟩
        dsimp only
        generalize (regroup _ vs).2 = r at i2
        clear hs i1 hm h0
        generalize l.inner = inner at i2 ⊢
        induction inner generalizing r with
        | nil => rfl
        | cons e inner ih =>
          cases r with
          | nil => simp at i2
          | cons v r =>
            simp only [List.map_cons, List.cons.injEq] at i2
            simp only [List.map_cons, List.zipWith_cons_cons, i2.1, ih r i2.2]
      · cases hok

/-- **C64 (violated: number of weights).**  In every other case the inference layer cannot be
created: in particular for a layer without bias whose kernel is compressed, and for an uncompressed
layer with one weight or more than two. -/
theorem C64_inference_violated (shape : V → S) (alg : Compressor V) (fresh : String → V)
    (l : Wrapped V) (hl : Spec.Compressed l)
    (hn : l.own.length + l.inner.length ≠ 0 ∧ l.own.length + l.inner.length ≠ 2) :
    ∃ e, createInference shape alg fresh l = .error e := by
  obtain ⟨own, inner⟩ := l
  obtain ⟨hnames, hgroups, hdist⟩ := hl
  simp only at *
  rcases Aux.prefix_cases hnames with h | h | h
  · obtain rfl : own = [] := by simpa using h
    rcases inner with _ | ⟨⟨n1, v1⟩, _ | ⟨⟨n2, v2⟩, _ | ⟨e, inner⟩⟩⟩
    · simp at hn
    · simp [createInference, Wrapped.getWeights, mapInference]
    · simp at hn
    · simp [createInference, Wrapped.getWeights, mapInference, Wrapped.setWeights]
  · rcases own with _ | ⟨⟨k, ts⟩, _ | ⟨e, own⟩⟩
    · simp at h
    · obtain rfl : k = "kernel" := by simpa using h
      have hts := hgroups ("kernel", ts) (by simp)
      simp only [ne_eq] at hts
      rcases inner with _ | ⟨⟨n1, v1⟩, _ | ⟨e, inner⟩⟩
      · simp [createInference, Wrapped.getWeights, mapInference, hts, Aux.lookup_bias]
      · simp at hn
      · simp [createInference, Wrapped.getWeights, mapInference, hts, Wrapped.setWeights,
          Aux.lookup_bias]
    · simp at h
  · rcases own with _ | ⟨⟨k, ts⟩, _ | ⟨⟨b, us⟩, _ | ⟨e, own⟩⟩⟩
    · simp at h
    · simp at h
    · obtain ⟨rfl, rfl⟩ : k = "kernel" ∧ b = "bias" := by simpa using h
      have hts := hgroups ("kernel", ts) (by simp)
      have hlk : (("bias" : String) == "kernel") = false := by decide
      simp only [ne_eq] at hts
      rcases inner with _ | ⟨e, inner⟩
      · simp at hn
      · simp [createInference, Wrapped.getWeights, mapInference, Wrapped.setWeights, hts,
          List.lookup_cons, hlk]
    · simp at h

/-- **C64 (both steps).**  A `Dense` or `Conv2D` layer with kernel and bias, whose kernel (or kernel
and bias) is compressed, made ready for training and then for inference: the final layer computes
with the decompressed compressed initial values where something is compressed, and with the
pretrained value elsewhere. -/
theorem C64_both_partial (shape : V → S) (alg : Compressor V) (fresh fresh' : String → V)
    (comp : List String) (hcomp : comp = ["kernel"] ∨ comp = ["kernel", "bias"])
    (kernel bias : V) (hinit : ∀ v, alg.init v ≠ []) (hfresh : shape (fresh' "bias") = shape bias) :
    ∃ l l', createTraining alg fresh true comp [("kernel", kernel), ("bias", bias)] = .ok l ∧
      createInference shape alg fresh' l = .ok l' ∧
      l'.inferenceWeight alg "kernel" = some (alg.decompress (alg.compress (alg.init kernel))) ∧
      l'.inferenceWeight alg "bias" = some (if "bias" ∈ comp
        then alg.decompress (alg.compress (alg.init bias)) else bias) := by
  rcases hcomp with rfl | rfl
  · have ht : createTraining alg fresh true ["kernel"] [("kernel", kernel), ("bias", bias)] =
        .ok ⟨[("kernel", alg.init kernel)], [("bias", bias)]⟩ := by
      simp [createTraining]
    obtain ⟨l', h1, h2, h3⟩ := C64_inference_partial shape alg fresh'
      ⟨[("kernel", alg.init kernel)], [("bias", bias)]⟩
      ⟨⟨["bias"], rfl⟩, by simpa using hinit kernel, by simp⟩
      (by simpa using hfresh) (Or.inr rfl)
    exact ⟨_, l', ht, h1, h2 _ _ (by simp), by simpa using h3 _ _ (by simp)⟩
  · have ht : createTraining alg fresh true ["kernel", "bias"]
        [("kernel", kernel), ("bias", bias)] =
        .ok ⟨[("kernel", alg.init kernel), ("bias", alg.init bias)], []⟩ := by
      simp [createTraining]
    obtain ⟨l', h1, h2, h3⟩ := C64_inference_partial shape alg fresh'
      ⟨[("kernel", alg.init kernel), ("bias", alg.init bias)], []⟩
      ⟨⟨[], rfl⟩, by simp [hinit], by simp⟩ (by simp) (Or.inr rfl)
    exact ⟨_, l', ht, h1, h2 _ _ (by simp), by simpa using h2 "bias" _ (by simp)⟩

/-- An algorithm that stores a list of numbers as it is. -/
def Example.plain : Compressor (List Nat) :=
  { init := fun v => [v], project := fun ts => ts.headD [], compress := fun ts => ts,
    decompress := fun ts => ts.headD [] }

/-- The hypotheses of `C64_both_partial` are met: kernel `[1, 2]`, bias `[7]`. -/
example : ∃ l l', createTraining Example.plain (fun _ => [0]) true ["kernel"]
      [("kernel", [1, 2]), ("bias", [7])] = .ok l ∧
    createInference List.length Example.plain (fun _ => [0]) l = .ok l' ∧
    l'.inferenceWeight Example.plain "kernel" = some [1, 2] ∧
    l'.inferenceWeight Example.plain "bias" = some [7] := by
  obtain ⟨l, l', h⟩ := C64_both_partial List.length Example.plain (fun _ => [0]) (fun _ => [0])
    ["kernel"] (Or.inl rfl) [1, 2] [7] (by simp [Example.plain]) rfl
  exact ⟨l, l', h⟩

/-- **C64 (violated: only the bias is compressed).**  The inference layer of a layer whose bias is
compressed can be created without an error although kernel and bias are mixed up: with equal shapes
the kernel of the inference layer is the bias. -/
theorem C64_bias_violated : ∃ l', createInference List.length Example.plain (fun _ => [0, 0])
      ⟨[("bias", [[7, 8]])], [("kernel", [1, 2])]⟩ = .ok l' ∧
    l'.inferenceWeight Example.plain "kernel" = some [7, 8] := by
  refine ⟨⟨[("bias", [[7, 8]])], [("kernel", [7, 8])]⟩, by rfl, by rfl⟩

end Verif.Props
