import Verif.Quant.Regex

/-
Model of the graph transformer

  /repo/tensorflow_model_optimization/python/core/quantization/keras/graph_transformations/
    transforms.py          `LayerPattern`, `LayerNode`, `Transform`
    model_transformer.py   `ModelTransformer`

The transformer works on the configuration dictionary of a model.  Simplifications:

* a layer's configuration is a dictionary from keys to the `str()` of the values;
* the entries of an inbound node are a list (a dictionary of tensors is replaced by the list of
  its values, which is what the code does with it), and each entry is
  `[layer, node_index, tensor_index, kwargs]`, where a keyword argument that is a list is a
  reference to a tensor and everything else is a constant;
* `names_and_weights`, the fallback for layers whose weight names clash, is not modelled;
* names that `replacement` makes up come from a counter that is passed in and returned.
-/
namespace Verif.Quant.Transformer

open Verif.Quant.Regex (matchPattern)

/-- A keyword argument of a call: a reference to a tensor or a constant. -/
inductive Kw where
  | tensor (src : String) (node tensor : Nat)
  | value (v : String)
deriving DecidableEq, Repr

/-- `connection_info`: `[layer, node_index, tensor_index, kwargs]`. -/
structure Conn where
  src : String
  node : Nat
  tensor : Nat
  kw : List (String × Kw)
deriving DecidableEq, Repr

/-- An entry of `config['layers']`: `layer['config']['name']`, `layer['class_name']`, the rest of
`layer['config']` and `layer['inbound_nodes']` (empty for the layers of a Sequential model). -/
structure Layer where
  name : String
  cls : String
  config : List (String × String)
  inbound : List (List Conn)
deriving DecidableEq, Repr

/-- `layer['config'].get(key)`, as a string. -/
def Layer.get (l : Layer) (key : String) : String :=
  if key = "name" then l.name else (l.config.lookup key).getD "None"

/-- `LayerPattern`, transforms.py lines 26-63. -/
inductive Pattern where
  | mk (cls : String) (config : List (String × String)) (inputs : List Pattern)

/-- `LayerNode`, transforms.py lines 71-112: a layer with its weights, its metadata and the
nodes that feed it. -/
inductive Node (V M : Type) where
  | mk (layer : Layer) (weights : List (String × V)) (info : M) (inputs : List (Node V M))

variable {V M : Type}

def Node.layer : Node V M → Layer
  | .mk l _ _ _ => l

def Node.weights : Node V M → List (String × V)
  | .mk _ w _ _ => w

def Node.info : Node V M → M
  | .mk _ _ m _ => m

def Node.inputs : Node V M → List (Node V M)
  | .mk _ _ _ i => i

def Node.name (n : Node V M) : String := n.layer.name

mutual
/-- `LayerNode.__eq__`, transforms.py lines 131-148.  `metaEq` is the equality of metadata, which
depends on the `__eq__` of the quantize configs in it. -/
def Node.beq [DecidableEq V] (metaEq : M → M → Bool) : Node V M → Node V M → Bool
  | .mk l w m ins, .mk l' w' m' ins' =>
    decide (l = l') && decide (w = w') && metaEq m m' && Node.beqList metaEq ins ins'
/-- The comparison of the lists of input nodes. -/
def Node.beqList [DecidableEq V] (metaEq : M → M → Bool) :
    List (Node V M) → List (Node V M) → Bool
  | [], [] => true
  | n :: ns, n' :: ns' => Node.beq metaEq n n' && Node.beqList metaEq ns ns'
  | _, _ => false
end

/-- The mutable state of a `ModelTransformer`: `_config['layers']`, `_config['output_layers']`,
`_layer_weights_map`, `_layer_metadata_map`, `candidate_layers`.  `functional` says whether the
model is a functional one (otherwise it is a Sequential model). -/
structure Graph (V M : Type) where
  functional : Bool
  layers : List Layer
  outputs : List (String × Nat × Nat)
  weights : String → List (String × V)
  metadata : String → Option M
  candidates : List String

/-- The layer a keyword argument refers to. -/
def kwSource : Kw → Option String
  | .tensor s _ _ => some s
  | .value _ => none

/-- The layers an entry of an inbound node refers to. -/
def connSources (c : Conn) : List String :=
  c.src :: c.kw.filterMap fun e => kwSource e.2

/-- `_get_inbound_layer_names`, model_transformer.py lines 83-100. -/
def inboundNames (l : Layer) : List String :=
  l.inbound.flatMap fun node => node.flatMap connSources

/-- `_get_consuming_layers`, lines 102-110. -/
def consumers (g : Graph V M) (name : String) : List Layer :=
  g.layers.filter fun l => name ∈ inboundNames l

/-- `_get_output_consumers`, lines 112-118. -/
def outputConsumers (g : Graph V M) (name : String) : List (String × Nat × Nat) :=
  g.outputs.filter fun o => o.1 = name

/-- `_get_layers`, lines 120-124: in the order of the configuration. -/
def getLayers (g : Graph V M) (names : List String) : List Layer :=
  g.layers.filter fun l => l.name ∈ names

/-- `_match_layer`, lines 138-156. -/
def matchLayer (g : Graph V M) (l : Layer) (cls : String) (config : List (String × String)) : Bool :=
  (g.candidates.isEmpty || l.name ∈ g.candidates)
  && matchPattern l.cls cls
  && config.all fun e => matchPattern (l.get e.1) e.2 || decide (l.get e.1 = e.2)

/-- `_is_match_supported`, lines 158-199. -/
def isMatchSupported (g : Graph V M) (l : Layer) (isHead : Bool) : Bool :=
  if l.inbound.length > 1 then false
  else if (consumers g l.name).length + (outputConsumers g l.name).length > 1 then isHead
  else true

/-- `_get_input_layer_names`, lines 201-213.  (A layer of a functional model without inbound
nodes, which only an `InputLayer` is, makes the code fail with an `IndexError` here; the shipped
patterns never look at the inputs of an `InputLayer`.) -/
def inputLayerNames (g : Graph V M) (l : Layer) : List String :=
  if g.functional then (l.inbound.headD []).map (·.src)
  else
    match g.layers.idxOf l with
    | 0 => []
    | i + 1 => (g.layers[i]?).toList.map (·.name)

/-- The node for a layer that matched. -/
def nodeOf [Inhabited M] (g : Graph V M) (l : Layer) (inputs : List (Node V M)) : Node V M :=
  .mk l (g.weights l.name) ((g.metadata l.name).getD default) inputs

mutual
/-- `_match_layer_with_inputs`, lines 215-261.  `default : M` is the empty dictionary. -/
def matchTree [Inhabited M] (g : Graph V M) : Pattern → Layer → Bool → Option (Node V M)
  | .mk cls config inputs, l, isHead =>
    if matchLayer g l cls config = false then none
    else if g.functional && !isMatchSupported g l isHead then none
    else if inputs.isEmpty then some (nodeOf g l [])
    else
      (matchTrees g inputs (getLayers g (inputLayerNames g l))).map (nodeOf g l)
/-- The loop over the inputs, with the check that there are as many layers as patterns
(lines 233-256). -/
def matchTrees [Inhabited M] (g : Graph V M) :
    List Pattern → List Layer → Option (List (Node V M))
  | [], [] => some []
  | p :: ps, l :: ls =>
    (matchTree g p l false).bind fun n => (matchTrees g ps ls).map (n :: ·)
  | _, _ => none
end

/-- `_find_pattern`, lines 263-272. -/
def findPattern [Inhabited M] (g : Graph V M) (p : Pattern) (matched : List String) :
    Option (Node V M) :=
  g.layers.findSome? fun l => if l.name ∈ matched then none else matchTree g p l true

mutual
/-- `_get_leaf_layers`, lines 274-288. -/
def leaves : Node V M → List Layer
  | .mk l _ _ [] => [l]
  | .mk _ _ _ (n :: ns) => leaves n ++ leavesList ns
/-- The leaves below a list of nodes. -/
def leavesList : List (Node V M) → List Layer
  | [] => []
  | n :: ns => leaves n ++ leavesList ns
end

mutual
/-- The nodes of a tree, head first: the order of `_add_replacement_layer` (lines 405-421) and
`_get_layer_names` (lines 290-294). -/
def preorder : Node V M → List (Node V M)
  | .mk l w m ins => .mk l w m ins :: preorderList ins
/-- The nodes below a list of nodes. -/
def preorderList : List (Node V M) → List (Node V M)
  | [] => []
  | n :: ns => preorder n ++ preorderList ns
end

mutual
/-- The nodes of a tree, inputs first: `_get_replacement_nodes`, lines 440-449. -/
def postorder : Node V M → List (Node V M)
  | .mk l w m ins => postorderList ins ++ [.mk l w m ins]
/-- The nodes below a list of nodes, inputs first. -/
def postorderList : List (Node V M) → List (Node V M)
  | [] => []
  | n :: ns => postorder n ++ postorderList ns
end

/-- `_get_layer_names`, lines 290-294. -/
def nodeNames (n : Node V M) : List String := (preorder n).map Node.name

/-- `_remove_layers`, lines 296-305: `list.remove` for every layer of the match, and its entries in
the maps are dropped. -/
def removeLayers (g : Graph V M) (names : List String) : Graph V M :=
  { g with
    layers := (getLayers g names).foldl (fun ls l => ls.erase l) g.layers
    weights := fun n => if n ∈ names then [] else g.weights n
    metadata := fun n => if n ∈ names then none else g.metadata n }

/-- The updates of the maps and of the candidates when a replacement node is added, lines 407-418
and 457-467. -/
def register [Inhabited M] [DecidableEq M] (g : Graph V M) (n : Node V M) : Graph V M :=
  { g with
    weights := fun k => if k = n.name ∧ n.weights ≠ [] then n.weights else g.weights k
    metadata := fun k => if k = n.name ∧ n.info ≠ default then some n.info else g.metadata k
    candidates := if g.candidates.isEmpty then [] else g.candidates ++ [n.name] }

/-- The replacement of one layer name by another in a keyword argument. -/
def renameKw (old new : String) : Kw → Kw
  | .tensor s n t => .tensor (if s = old then new else s) n t
  | .value v => .value v

/-- `_replace_layer_name_for_connection_info`, lines 328-335. -/
def renameConn (old new : String) (c : Conn) : Conn :=
  { c with
    src := if c.src = old then new else c.src
    kw := c.kw.map fun e => (e.1, renameKw old new e.2) }

/-- The renaming in all inbound nodes of a layer, lines 337-342. -/
def renameLayer (old new : String) (l : Layer) : Layer :=
  { l with inbound := l.inbound.map fun node => node.map (renameConn old new) }

mutual
/-- `_assign_inbounds_for_replacement` (lines 352-372) and the connection of the leaves (lines
377-396): an inner node of the replacement is connected to its inputs, a leaf gets the next of
the inbound nodes of the original leaves. -/
def wire : Node V M → List (List (List Conn)) → Node V M × List (List (List Conn))
  | .mk l w m [], [] => (.mk l w m [], [])
  | .mk l w m [], inb :: rest => (.mk { l with inbound := inb } w m [], rest)
  | .mk l w m (n :: ns), inbs =>
    (.mk { l with inbound := [(n :: ns).map fun x => ⟨x.name, 0, 0, []⟩] } w m
      ((wire n inbs).1 :: (wireList ns (wire n inbs).2).1), (wireList ns (wire n inbs).2).2)
/-- The wiring of a list of nodes. -/
def wireList : List (Node V M) → List (List (List Conn)) →
    List (Node V M) × List (List (List Conn))
  | [], inbs => ([], inbs)
  | n :: ns, inbs =>
    ((wire n inbs).1 :: (wireList ns (wire n inbs).2).1, (wireList ns (wire n inbs).2).2)
end

/-- `_replace_functional`, lines 314-423. -/
def replaceFunctional [Inhabited M] [DecidableEq M] (g : Graph V M) (mtch repl : Node V M) :
    Except String (Graph V M) :=
  let old := mtch.name
  let new := repl.name
  -- 1. the consumers of the head, and the outputs of the model
  let g1 : Graph V M :=
    { g with
      layers := g.layers.map fun l => if old ∈ inboundNames l then renameLayer old new l else l
      outputs := g.outputs.map fun o => if o.1 = old then (new, o.2) else o }
  -- 2., 3. the inbound nodes of the replacement
  let inbs := (leaves mtch).map fun l =>
    (if old ∈ inboundNames l then renameLayer old new l else l).inbound
  if (leaves mtch).length ≠ (leaves repl).length then
    .error "Different size of leaf layers not supported yet."
  else
    let wired := (wire repl inbs).1
    -- 4. the matched layers are removed
    let g2 := removeLayers g1 (nodeNames mtch)
    -- 5. the new layers are added
    .ok ((preorder wired).foldl
      (fun g n => register { g with layers := g.layers ++ [n.layer] } n) g2)

/-- Python's `list.insert`. -/
def pyInsert {α : Type} (xs : List α) (i : Nat) (x : α) : List α := xs.take i ++ x :: xs.drop i

/-- `_add_replacement_nodes`, lines 451-468. -/
def addSequential [Inhabited M] [DecidableEq M] (g : Graph V M) :
    Nat → List (Node V M) → Graph V M
  | _, [] => g
  | i, n :: ns =>
    addSequential (register { g with layers := pyInsert g.layers i n.layer } n) (i + 1) ns

/-- `_replace_sequential`, lines 425-471.  (The list of layers to remove cannot be empty.) -/
def replaceSequential [Inhabited M] [DecidableEq M] (g : Graph V M) (mtch repl : Node V M) :
    Graph V M :=
  match getLayers g (nodeNames mtch) with
  | [] => g
  | first :: _ =>
    addSequential (removeLayers g (nodeNames mtch)) (g.layers.idxOf first) (postorder repl)

/-- `_replace`, lines 307-312. -/
def replace [Inhabited M] [DecidableEq M] (g : Graph V M) (mtch repl : Node V M) :
    Except String (Graph V M) :=
  if g.functional then replaceFunctional g mtch repl else .ok (replaceSequential g mtch repl)

/-- `Transform`: the class name, the pattern and the replacement, which may raise an exception and
may make up names. -/
structure Transform (V M : Type) where
  name : String
  pattern : Pattern
  replacement : Nat → Node V M → Except String (Node V M × Nat)

/-- The state of the loops in `transform` (lines 585-617): the graph, the pairs (transform class,
layer name) matched so far, the name counter, the transforms still to be tried in this pass of
the outer loop, and `match_found`. -/
structure Loop (V M : Type) where
  graph : Graph V M
  matched : List (String × String)
  supply : Nat
  rest : List (Transform V M)
  found : Bool

/-- What one turn of the loops leads to. -/
inductive Turn (V M : Type) where
  /-- the loops go on -/
  | next (s : Loop V M)
  /-- no transform matched in a whole pass: the loops end -/
  | done (g : Graph V M)
  /-- an exception -/
  | error (e : String)

/-- `_get_matched_layers`, lines 521-522. -/
def matchedBy (matched : List (String × String)) (t : String) : List String :=
  (matched.filter fun e => e.1 = t).map (·.2)

/-- One turn of the loops in `transform`, lines 585-617: search for a match of the next transform;
without one, go on to the next transform (or the next pass, or stop); with one, store it, ask for
the replacement, and replace unless the replacement equals the match. -/
def turn [Inhabited M] [DecidableEq M] [DecidableEq V] (metaEq : M → M → Bool)
    (transforms : List (Transform V M)) (s : Loop V M) : Turn V M :=
  match s.rest with
  | [] => if s.found then .next { s with rest := transforms, found := false } else .done s.graph
  | t :: ts =>
    match findPattern s.graph t.pattern (matchedBy s.matched t.name) with
    | none => .next { s with rest := ts }
    | some m =>
      match t.replacement s.supply m with
      | .error e => .error e
      | .ok (r, k) =>
        if Node.beq metaEq m r then
          .next { s with matched := s.matched ++ [(t.name, m.name)], supply := k }
        else
          match replace s.graph m r with
          | .error e => .error e
          | .ok g =>
            .next { s with
              graph := g, matched := s.matched ++ [(t.name, m.name)], supply := k, found := true }

/-- The loops, for at most `fuel` turns; `none` if they have not ended by then. -/
def run [Inhabited M] [DecidableEq M] [DecidableEq V] (metaEq : M → M → Bool)
    (transforms : List (Transform V M)) : Nat → Loop V M → Option (Except String (Graph V M))
  | 0, _ => none
  | fuel + 1, s =>
    match turn metaEq transforms s with
    | .next s' => run metaEq transforms fuel s'
    | .done g => some (.ok g)
    | .error e => some (.error e)

/-- The beginning of `transform`, lines 562-579: nothing is matched yet. -/
def start (transforms : List (Transform V M)) (g : Graph V M) : Loop V M :=
  { graph := g, matched := [], supply := 0, rest := transforms, found := false }

end Verif.Quant.Transformer
