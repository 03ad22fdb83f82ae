import Verif.Clustering.Model

/-!
# Clustering: configuration of the wrapper

`clustering/keras/cluster_wrapper.py`: `__init__` (58-161), `get_config` (338-348), `from_config`
(350-374); `cluster_config.py`.
-/

namespace Verif.Clustering

/-- A layer in a configuration: its name, its class (which must be known when it is read), and what
the wrapper asks about it. -/
structure SavedLayer where
  name : String
  cls : String
  layer : CLayer

/-- Values in a wrapper configuration.  `enum s` is a member of a `str`-based `Enum` with value `s`
(`cluster_config.py`), which is equal to the string `s` (Python `str.__eq__`). -/
inductive CfgV where
  | int (n : ℤ)
  | bool (b : Bool)
  | enum (s : String)
  | str (s : String)
  | layer (l : SavedLayer)

/-- Writing a value as JSON and reading it again: an `Enum` member that is a `str` is written as its
value. -/
def CfgV.json : CfgV → CfgV
  | .enum s => .str s
  | v => v

/-- A clustering wrapper: class, name, wrapped layer and parameters (`cluster_wrapper.py` 100-121).
`aggregation` is stored as given. -/
structure ClusterW where
  cls : WrapperClass
  name : String
  layer : SavedLayer
  numberOfClusters : ℤ
  init : CfgV
  preserveSparsity : Bool
  perChannel : Bool
  aggregation : CfgV

inductive CfgErr where
  | key (k : String)
  | value
  | type
  | init (e : CErr)
  deriving DecidableEq

/-- Keyword arguments the Keras base classes accept (`Layer.__init__`). -/
def kerasKwargs : List String := ["name", "trainable", "dtype", "batch_input_shape", "dynamic"]

/-- Whether there is a keyword argument that neither `ClusterWeights.__init__`
(`cluster_wrapper.py` 58-66) nor Keras takes. -/
def unexpected (kw : List (String × CfgV)) : Bool :=
  kw.any fun a => !((["layer", "number_of_clusters", "cluster_centroids_init", "preserve_sparsity",
    "cluster_per_channel", "cluster_gradient_aggregation"] ++ kerasKwargs).contains a.1)

/-- `ClusterWeights.__init__`, `cluster_wrapper.py` 58-161, called with keyword arguments; the
subclasses do not override it. -/
def constructW (cls : WrapperClass) (kw : List (String × CfgV)) : Except CfgErr ClusterW :=
  match unexpected kw with
  | true => .error .type
  | false =>
    match kw.lookup "layer", kw.lookup "number_of_clusters" with
    | none, _ => .error .type
    | _, none => .error .type
    | some (.layer l), some n =>
      let ps := match kw.lookup "preserve_sparsity" with | some (.bool b) => b | _ => false
      let pc := match kw.lookup "cluster_per_channel" with | some (.bool b) => b | _ => false
      let count := match n with | .int k => some k | _ => none
      let name := match kw.lookup "name" with | some (.str s) => s | _ => "cluster_" ++ l.name
      match CWrapper.new l.layer count ps pc with
      | .error e => .error (.init e)
      | .ok w => .ok
          { cls := cls
            name := name
            layer := l
            numberOfClusters := w.numberOfClusters
            init := (kw.lookup "cluster_centroids_init").getD
              (.enum "CentroidInitialization.KMEANS_PLUS_PLUS")
            preserveSparsity := w.preserveSparsity
            perChannel := w.clusterPerChannel
            aggregation := (kw.lookup "cluster_gradient_aggregation").getD
              (.enum "GradientAggregation.SUM") }
    | some _, some _ => .error .value

/-- `ClusterWeights.get_config`, `cluster_wrapper.py` 338-348, on top of the base configuration (name,
trainable, layer). -/
def ClusterW.getConfig (w : ClusterW) : List (String × CfgV) :=
  [("number_of_clusters", .int w.numberOfClusters), ("cluster_centroids_init", w.init),
   ("preserve_sparsity", .bool w.preserveSparsity),
   ("cluster_gradient_aggregation", w.aggregation), ("cluster_per_channel", .bool w.perChannel),
   ("name", .str w.name), ("trainable", .bool true), ("layer", .layer w.layer)]

/-- `CentroidInitialization(v)`: an `Enum` is looked up by value (a member is equal to its value). -/
def toCentroidInit : CfgV → Except CfgErr CfgV
  | .enum s => if s ∈ supportedInits then .ok (.enum s) else .error .value
  | .str s => if s ∈ supportedInits then .ok (.enum s) else .error .value
  | _ => .error .value

/-- `dict.pop`. -/
def popKey (k : String) (c : List (String × CfgV)) : Except CfgErr (CfgV × List (String × CfgV)) :=
  match c.lookup k with
  | none => .error (.key k)
  | some v => .ok (v, c.filter fun a => a.1 ≠ k)

/-- `ClusterWeights.from_config`, `cluster_wrapper.py` 350-374; `known` are the layer classes that can
be deserialised. -/
def fromConfigW (known : List String) (cls : WrapperClass) (c : List (String × CfgV)) :
    Except CfgErr ClusterW :=
  match popKey "number_of_clusters" c with
  | .error e => .error e
  | .ok (n, c) =>
    match popKey "cluster_centroids_init" c with
    | .error e => .error e
    | .ok (init, c) =>
      match popKey "preserve_sparsity" c with
      | .error e => .error e
      | .ok (ps, c) =>
        match popKey "cluster_gradient_aggregation" c with
        | .error e => .error e
        | .ok (agg, c) =>
          match popKey "cluster_per_channel" c with
          | .error e => .error e
          | .ok (pc, c) =>
            match toCentroidInit init with
            | .error e => .error e
            | .ok init =>
              match popKey "layer" c with
              | .error e => .error e
              | .ok (.layer l, c) =>
                if l.cls ∈ known then
                  constructW cls (c ++ [("number_of_clusters", n), ("cluster_centroids_init", init),
                    ("preserve_sparsity", ps), ("cluster_gradient_aggregation", agg),
                    ("cluster_per_channel", pc), ("layer", .layer l)])
                else .error .value
              | .ok (_, _) => .error .value

/-- `cluster_gradient_aggregation == GradientAggregation.SUM` / `AVG`, `clustering_algorithm.py`
162-182; `none` = `ValueError`. -/
def aggregationOf : CfgV → Option Aggregation
  | .enum "GradientAggregation.SUM" | .str "GradientAggregation.SUM" => some .sum
  | .enum "GradientAggregation.AVG" | .str "GradientAggregation.AVG" => some .avg
  | _ => none

end Verif.Clustering
