import Verif.Props.ClusterModel
import Verif.Clustering.Config
import Verif.Props.ClusterWrapper

/-!
# C95: saving and restoring a clustering wrapper
-/

set_option linter.unusedSectionVars false

namespace Verif.Props
open Verif.Clustering

/-- The text of a value: a member of a `str` enumeration is its value. -/
def Spec.text : CfgV → Option String
  | .enum s => some s
  | .str s => some s
  | _ => none

/-- Two wrappers that a user cannot tell apart. -/
def Spec.SameWrapper (w w' : ClusterW) : Prop :=
  w'.cls = w.cls ∧ w'.name = w.name ∧ w'.layer = w.layer ∧
    w'.numberOfClusters = w.numberOfClusters ∧ w'.preserveSparsity = w.preserveSparsity ∧
    w'.perChannel = w.perChannel ∧ Spec.text w'.init = Spec.text w.init ∧
    Spec.text w'.aggregation = Spec.text w.aggregation

/-- What `constructW` guarantees. -/
theorem Aux.constructW_ok (cls : WrapperClass) (kw : List (String × CfgV)) (w : ClusterW)
    (h : constructW cls kw = .ok w) :
    w.cls = cls ∧ w.layer.layer.clusterable = true ∧ 1 < w.numberOfClusters ∧
      (w.preserveSparsity = true → 2 < w.numberOfClusters) ∧
      (w.perChannel = true → w.layer.layer.kind = .conv2D) := by
  unfold constructW at h
  split at h
  · cases h
  split at h
  · cases h
  · cases h
  · rename_i l n _ _
    dsimp only at h
    split at h
    · cases h
    · rename_i cw hc
      cases h
      obtain ⟨h1, ⟨k, hk, h2, h3, h4⟩, h5, h6, h7⟩ := (C29_accept _ _ _ _ _).1 hc
      refine ⟨rfl, h1, by dsimp only; omega, ?_, ?_⟩
      · intro hp
        dsimp only at hp ⊢
        rw [h4]
        exact h3 (by rw [← h6]; exact hp)
      · intro hp
        exact (h7.1 hp).2
  · cases h

/-- The accessors of a rebuilt configuration. -/
theorem Aux.fromConfigW_eq (known : List String) (w : ClusterW) (i a : CfgV) (i' : CfgV)
    (hi : toCentroidInit i = .ok i') (hk : w.layer.cls ∈ known) :
    fromConfigW known w.cls
      [("number_of_clusters", .int w.numberOfClusters), ("cluster_centroids_init", i),
       ("preserve_sparsity", .bool w.preserveSparsity), ("cluster_gradient_aggregation", a),
       ("cluster_per_channel", .bool w.perChannel), ("name", .str w.name), ("trainable", .bool true),
       ("layer", .layer w.layer)] =
    constructW w.cls
      [("name", .str w.name), ("trainable", .bool true),
       ("number_of_clusters", .int w.numberOfClusters), ("cluster_centroids_init", i'),
       ("preserve_sparsity", .bool w.preserveSparsity), ("cluster_gradient_aggregation", a),
       ("cluster_per_channel", .bool w.perChannel), ("layer", .layer w.layer)] := by
  simp only [fromConfigW, popKey, List.lookup_cons, String.reduceBEq, beq_self_eq_true,
    List.filter_cons, ne_eq, not_true_eq_false, decide_false, String.reduceEq, not_false_eq_true,
    decide_true, if_true, Bool.false_eq_true, if_false, List.filter_nil, hi, hk, List.cons_append,
    List.nil_append]

theorem Aux.constructW_again (w : ClusterW) (i a : CfgV)
    (h1 : w.layer.layer.clusterable = true) (h2 : 1 < w.numberOfClusters)
    (h3 : w.preserveSparsity = true → 2 < w.numberOfClusters)
    (h4 : w.perChannel = true → w.layer.layer.kind = .conv2D) :
    constructW w.cls
      [("name", .str w.name), ("trainable", .bool true),
       ("number_of_clusters", .int w.numberOfClusters), ("cluster_centroids_init", i),
       ("preserve_sparsity", .bool w.preserveSparsity), ("cluster_gradient_aggregation", a),
       ("cluster_per_channel", .bool w.perChannel), ("layer", .layer w.layer)] =
      .ok ⟨w.cls, w.name, w.layer, w.numberOfClusters, i, w.preserveSparsity, w.perChannel, a⟩ := by
  have hnew : CWrapper.new w.layer.layer (some w.numberOfClusters) w.preserveSparsity w.perChannel =
      .ok ⟨w.layer.layer, w.numberOfClusters, w.preserveSparsity, w.perChannel⟩ := by
    rw [C29_accept]
    refine ⟨h1, ⟨_, rfl, h2, h3, rfl⟩, rfl, rfl, ?_⟩
    exact ⟨fun h => ⟨h, h4 h⟩, fun h => h.1⟩
  have hu : unexpected
      [("name", .str w.name), ("trainable", .bool true),
       ("number_of_clusters", .int w.numberOfClusters), ("cluster_centroids_init", i),
       ("preserve_sparsity", .bool w.preserveSparsity), ("cluster_gradient_aggregation", a),
       ("cluster_per_channel", .bool w.perChannel), ("layer", .layer w.layer)] = false := by
    rfl
  simp only [constructW, hu, List.lookup_cons, String.reduceBEq, beq_self_eq_true, hnew,
    Option.getD_some]

/-- **C95.**  For every clustering wrapper (of any of the three classes, on any layer, with any
parameters and name) that could be created with a supported initialisation: restoring its
configuration, directly or after writing it as JSON, succeeds and gives a wrapper of the same class with
the same name, layer, number of clusters, initialisation, sparsity preservation, per-channel setting and
gradient aggregation. -/
theorem C95_roundtrip (known : List String) (cls : WrapperClass) (kw : List (String × CfgV))
    (w : ClusterW) (h : constructW cls kw = .ok w) (s : String) (hinit : Spec.text w.init = some s)
    (hs : s ∈ Spec.documentedInits) (t : String) (hagg : Spec.text w.aggregation = some t)
    (hk : w.layer.cls ∈ known) :
    (∃ w', fromConfigW known w.cls w.getConfig = .ok w' ∧ Spec.SameWrapper w w') ∧
    ∃ w', fromConfigW known w.cls (w.getConfig.map fun a => (a.1, a.2.json)) = .ok w' ∧
      Spec.SameWrapper w w' := by
  obtain ⟨-, h1, h2, h3, h4⟩ := Aux.constructW_ok _ _ _ h
  rw [show Spec.documentedInits = supportedInits by decide] at hs
  have hi : toCentroidInit w.init = .ok (.enum s) := by
    cases hw : w.init <;> rw [hw] at hinit <;> simp [Spec.text] at hinit <;>
      subst hinit <;> simp [toCentroidInit, hs]
  have hj : toCentroidInit w.init.json = .ok (.enum s) := by
    cases hw : w.init <;> rw [hw] at hinit <;> simp [Spec.text] at hinit <;>
      subst hinit <;> simp [CfgV.json, toCentroidInit, hs]
  have ha : Spec.text w.aggregation.json = Spec.text w.aggregation := by
    cases w.aggregation <;> rfl
  constructor
  · refine ⟨_, (Aux.fromConfigW_eq known w w.init w.aggregation _ hi hk).trans
      (Aux.constructW_again w _ _ h1 h2 h3 h4), rfl, rfl, rfl, rfl, rfl, rfl, ?_, rfl⟩
    exact hinit.symm
  · refine ⟨_, (Aux.fromConfigW_eq known w w.init.json w.aggregation.json _ hj hk).trans
      (Aux.constructW_again w _ _ h1 h2 h3 h4), rfl, rfl, rfl, rfl, rfl, rfl, ?_, ha⟩
    exact hinit.symm

/-- The restored wrapper clusters with the same aggregation: only the text of the setting matters. -/
theorem C95_aggregation (v v' : CfgV) (h : Spec.text v = Spec.text v') (hv : (Spec.text v).isSome) :
    aggregationOf v = aggregationOf v' := by
  have key : ∀ s : String, aggregationOf (.enum s) = aggregationOf (.str s) := by
    intro s
    unfold aggregationOf
    split <;> simp_all
  cases v <;> cases v' <;> simp [Spec.text] at h hv <;> subst h <;> simp [key]

/-- **C95 (unknown settings).**  A keyword argument that is neither a setting of the wrapper nor one Keras layers take
is rejected, whatever the other arguments are. -/
theorem C95_unknown (cls : WrapperClass) (kw : List (String × CfgV)) (a : String × CfgV) (ha : a ∈ kw)
    (h : a.1 ∉ ["layer", "number_of_clusters", "cluster_centroids_init", "preserve_sparsity",
      "cluster_per_channel", "cluster_gradient_aggregation", "name", "trainable", "dtype", "batch_input_shape",
      "dynamic"]) :
    constructW cls kw = .error .type := by
  have : unexpected kw = true := by
    unfold unexpected
    rw [List.any_eq_true]
    refine ⟨a, ha, ?_⟩
    rw [Bool.not_eq_true', ← Bool.not_eq_true]
    simpa only [List.contains_iff_mem, kerasKwargs, List.cons_append, List.nil_append] using h
  unfold constructW
  rw [this]

/-- **C95 (names).**  A wrapper created without a name is called `cluster_<layer name>`; a given name is
kept, so saving and restoring never adds another prefix. -/
theorem C95_name (cls : WrapperClass) (kw : List (String × CfgV)) (w : ClusterW)
    (h : constructW cls kw = .ok w) :
    (kw.lookup "name" = none → w.name = "cluster_" ++ w.layer.name) ∧
    ∀ s, kw.lookup "name" = some (.str s) → w.name = s := by
  unfold constructW at h
  split at h
  · cases h
  split at h
  · cases h
  · cases h
  · dsimp only at h
    split at h
    · cases h
    · cases h
      constructor
      · intro hn
        simp only [hn]
      · intro s hn
        simp only [hn]
  · cases h

/-- **C95 (settings and defaults).**  A wrapper has the settings it was created with; those that were not
given are k-means++ initialisation, summed gradients, no sparsity preservation and no per-channel
clustering. -/
theorem C95_defaults (cls : WrapperClass) (kw : List (String × CfgV)) (w : ClusterW)
    (h : constructW cls kw = .ok w) :
    w.cls = cls ∧ kw.lookup "number_of_clusters" = some (.int w.numberOfClusters) ∧
    (∀ v, kw.lookup "cluster_centroids_init" = some v → w.init = v) ∧
    (kw.lookup "cluster_centroids_init" = none →
      Spec.text w.init = some "CentroidInitialization.KMEANS_PLUS_PLUS") ∧
    (∀ v, kw.lookup "cluster_gradient_aggregation" = some v → w.aggregation = v) ∧
    (kw.lookup "cluster_gradient_aggregation" = none → aggregationOf w.aggregation = some .sum) ∧
    (∀ b, kw.lookup "preserve_sparsity" = some (.bool b) → w.preserveSparsity = b) ∧
    (kw.lookup "preserve_sparsity" = none → w.preserveSparsity = false) ∧
    (kw.lookup "cluster_per_channel" = none → w.perChannel = false) := by
  unfold constructW at h
  split at h
  · cases h
  split at h
  · cases h
  · cases h
  · rename_i l n hl hn
    dsimp only at h
    split at h
    · cases h
    · rename_i cw hc
      cases h
      obtain ⟨h1, ⟨k, hk, h2, h3, h4⟩, h5, h6, h7⟩ := (C29_accept _ _ _ _ _).1 hc
      refine ⟨rfl, ?_, ?_, ?_, ?_, ?_, ?_, ?_, ?_⟩
      · rw [hn]
        cases n with
        | int m =>
          simp only [Option.some.injEq] at hk
          subst hk
          exact congrArg (fun x => some (CfgV.int x)) h4.symm
        | _ => cases hk
      · intro v hv; simp only [hv, Option.getD_some]
      · intro hv; simp only [hv, Option.getD_none]; rfl
      · intro v hv; simp only [hv, Option.getD_some]
      · intro hv; simp only [hv, Option.getD_none]; rfl
      · intro b hv; simpa only [hv] using h6
      · intro hv; simpa only [hv] using h6
      · intro hv
        dsimp only
        rw [Bool.eq_false_iff]
        intro hp
        have := (h7.1 hp).1
        simp only [hv] at this
        cases this
  · cases h

/-- A configuration from which one of the clustering settings is missing is rejected. -/
theorem C95_missing (known : List String) (cls : WrapperClass) (c : List (String × CfgV))
    (k : String) (hk : k ∈ ["number_of_clusters", "cluster_centroids_init", "preserve_sparsity",
      "cluster_gradient_aggregation", "cluster_per_channel", "layer"])
    (hc : c.lookup k = none) : ∀ w, fromConfigW known cls c ≠ .ok w := by
  have hf : ∀ (k k' : String) (c : List (String × CfgV)), c.lookup k = none →
      (c.filter fun a => decide (a.1 ≠ k')).lookup k = none := by
    intro k k' c h
    induction c with
    | nil => rfl
    | cons x c ih =>
      obtain ⟨n, v⟩ := x
      rw [List.lookup_cons] at h
      by_cases e : k = n
      · subst e; simp at h
      · have e' : (k == n) = false := by simpa using e
        rw [e'] at h
        rw [List.filter_cons]
        split_ifs
        · rw [List.lookup_cons, e']; exact ih h
        · exact ih h
  have hp : ∀ (k k' : String) (c : List (String × CfgV)) (v : CfgV) (c' : List (String × CfgV)),
      popKey k' c = .ok (v, c') → c.lookup k = none → k ≠ k' ∧ c'.lookup k = none := by
    intro k k' c v c' h hn
    unfold popKey at h
    split at h
    · cases h
    · rename_i v' hv
      cases h
      refine ⟨?_, hf k k' c hn⟩
      rintro rfl
      rw [hn] at hv
      cases hv
  intro w h
  unfold fromConfigW at h
  split at h
  · cases h
  rename_i v1 c1 e1
  obtain ⟨n1, hc⟩ := hp k _ _ _ _ e1 hc
  split at h
  · cases h
  rename_i v2 c2 e2
  obtain ⟨n2, hc⟩ := hp k _ _ _ _ e2 hc
  split at h
  · cases h
  rename_i v3 c3 e3
  obtain ⟨n3, hc⟩ := hp k _ _ _ _ e3 hc
  split at h
  · cases h
  rename_i v4 c4 e4
  obtain ⟨n4, hc⟩ := hp k _ _ _ _ e4 hc
  split at h
  · cases h
  rename_i v5 c5 e5
  obtain ⟨n5, hc⟩ := hp k _ _ _ _ e5 hc
  split at h
  · cases h
  split at h
  · cases h
  · rename_i v7 c7 e7
    obtain ⟨n7, -⟩ := hp k _ _ _ _ e7 hc
    simp only [List.mem_cons, List.not_mem_nil, or_false] at hk
    rcases hk with rfl | rfl | rfl | rfl | rfl | rfl <;> contradiction
  · cases h

namespace Example
def savedConv : SavedLayer := ⟨"conv", "Conv2D", { kind := .conv2D, clusterable := true }⟩
def savedDense : SavedLayer := ⟨"dense", "Dense", { kind := .other, clusterable := true }⟩

/-- A convolution clustered per channel, and a dense layer for which per-channel is ignored. -/
example : (∃ w, constructW .clusterWeights [("layer", .layer savedConv),
      ("number_of_clusters", .int 8), ("cluster_per_channel", .bool true),
      ("cluster_gradient_aggregation", .enum "GradientAggregation.AVG")] = .ok w ∧
      w.perChannel = true ∧ w.name = "cluster_conv" ∧
      Spec.text w.init = some "CentroidInitialization.KMEANS_PLUS_PLUS") ∧
    ∃ w, constructW .clusterWeights [("layer", .layer savedDense),
      ("number_of_clusters", .int 8), ("cluster_per_channel", .bool true)] = .ok w ∧
      w.perChannel = false := by
  refine ⟨⟨_, rfl, rfl, rfl, rfl⟩, ⟨_, rfl, rfl⟩⟩

example : aggregationOf (.str "GradientAggregation.AVG") = some .avg := rfl
end Example

end Verif.Props
