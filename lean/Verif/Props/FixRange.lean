import Verif.Quant.FixRange
import Verif.Props.SerializeLibrary
import Mathlib.Data.List.Forall2

/-!
# Property C87: fixing and removing the ranges of inputs and outputs
-/

set_option linter.unusedSectionVars false
namespace Verif.Props
open Verif Verif.Quant.Config Verif.Quant.Serialize Verif.Quant.FixRange

/-! ## Specification -/

/-- The inputs or outputs of a model: a tensor of a layer, or a list or dictionary of such structures. -/
inductive Spec.Tensors where
  | tensor (layer : String) (node index : ℤ) (kwargs : Bool)
  | list (l : List Spec.Tensors)
  | dict (l : List Spec.Tensors)

mutual
/-- How Keras writes them down. -/
def Spec.Tensors.encode : Spec.Tensors → Nested
  | .tensor n i t false => .list [.str n, .num i, .num t]
  | .tensor n i t true => .list [.str n, .num i, .num t, .kwargs]
  | .list l => .list (Spec.Tensors.encodeAll l)
  | .dict l => .dict (Spec.Tensors.encodeAll l)
def Spec.Tensors.encodeAll : List Spec.Tensors → List Nested
  | [] => []
  | t :: r => t.encode :: Spec.Tensors.encodeAll r
end

mutual
/-- The layers they come from, in order. -/
def Spec.Tensors.layers : Spec.Tensors → List String
  | .tensor n _ _ _ => [n]
  | .list l => Spec.Tensors.layersAll l
  | .dict l => Spec.Tensors.layersAll l
def Spec.Tensors.layersAll : List Spec.Tensors → List String
  | [] => []
  | t :: r => t.layers ++ Spec.Tensors.layersAll r
end

/-- The layers of a quantized model: a `QuantizeLayer`, a quantized layer (`QuantizeWrapper` or `QuantizeWrapperV2`),
anything else. -/
inductive Spec.QLayer where
  | quantize (name : String) (trainable : Bool) (dtype : String) (quantizer : Val)
  | wrapped (v2 : Bool) (name : String) (trainable : Bool) (dtype : String) (layer config : Val)
  | other (obj : Val)

/-- The object. -/
def Spec.QLayer.obj : Spec.QLayer → Val
  | .quantize n t d q => .obj "QuantizeLayer" (.ofList [("name", .str n), ("trainable", .bool t), ("dtype", .str d),
      ("quantizer", q)])
  | .wrapped v2 n t d l c => .obj (if v2 then "QuantizeWrapperV2" else "QuantizeWrapper") (.ofList [("name", .str n),
      ("trainable", .bool t), ("dtype", .str d), ("layer", l), ("quantize_config", c)])
  | .other o => o

/-- The first input of a layer. -/
def Spec.firstInput : Nested → Option String
  | .list (.list (.list (.str n :: _) :: _) :: _) => some n
  | _ => none

/-- A `FixedQuantizer` with a range. -/
def Spec.fixedQuantizer (r : Range) : Val := .obj "FixedQuantizer" (.ofList [("num_bits", .num r.numBits),
  ("init_min", .num r.lo), ("init_max", .num r.hi), ("narrow_range", .bool r.narrow)])

/-- A `FixedQuantizeConfig` over a config: it holds the config, the range, and the quantizer with that range. -/
def Spec.fixedConfig (r : Range) (config : Val) : Val := .obj "FixedQuantizeConfig" (.ofList [("config", config),
  ("num_bits", .num r.numBits), ("init_min", .num r.lo), ("init_max", .num r.hi), ("narrow_range", .bool r.narrow),
  ("fixed_quantizer", Spec.fixedQuantizer r)])

/-- A `QuantizeLayer` gets a new quantizer, other layers are kept. -/
def Spec.QLayer.requantize (q : Val) : Spec.QLayer → Spec.QLayer
  | .quantize n t d _ => .quantize n t d q
  | l => l

/-- A quantized layer gets a fixed range for its outputs and activations, other layers are kept. -/
def Spec.QLayer.fixOutput (r : Range) : Spec.QLayer → Spec.QLayer
  | .wrapped v n t d l c => .wrapped v n t d l (Spec.fixedConfig r c)
  | l => l

/-- The name of a layer (not needed for other layers, which are not changed). -/
def Spec.QLayer.name? : Spec.QLayer → Option String
  | .quantize n _ _ _ => some n
  | .wrapped _ n _ _ _ _ => some n
  | .other _ => none

/-- A layer in its place. -/
structure Spec.Placed where
  layer : Spec.QLayer
  inbound : Nested

def Spec.Placed.toM (p : Spec.Placed) : MLayer := ⟨p.layer.obj, p.inbound⟩

/-- The effect on the inputs of a functional model. -/
def Spec.Placed.fixInput (q : Val) (inputs : List String) (p : Spec.Placed) : Spec.Placed :=
  match Spec.firstInput p.inbound with
  | some n => if n ∈ inputs then { p with layer := p.layer.requantize q } else p
  | none => p

/-- The effect on the outputs of a functional model. -/
def Spec.Placed.fixOutput (r : Range) (outputs : List String) (p : Spec.Placed) : Spec.Placed :=
  match p.layer.name? with
  | some n => if n ∈ outputs then { p with layer := p.layer.fixOutput r } else p
  | none => p

/-- The last element changed. -/
def Spec.changeLast {A : Type*} (f : A → A) : List A → List A
  | [] => []
  | [a] => [f a]
  | a :: l => a :: Spec.changeLast f l

/-- The layers of a quantized model are made by constructors of registered classes; layers other than wrappers have no
`quantize_config` in their configuration. -/
def Spec.QuantizedLayer (K' : String → Class) (user : List String) : Spec.QLayer → Prop
  | .quantize _ _ _ q => q = .null ∨ Spec.Made (classes K') (Spec.Registered user) q
  | .wrapped _ _ _ _ l c => Spec.Made (classes K') (Spec.Registered user) l ∧
      Spec.Made (classes K') (Spec.Registered user) c
  | .other o => Spec.Made (classes K') (Spec.Registered user) o ∧
      ∀ cls f, o = .obj cls f → "quantize_config" ∉ (classes K' cls).config.map Prod.fst

/-! ## Nested structures -/

theorem Aux.encode_not_str (t : Spec.Tensors) (s : String) : t.encode ≠ .str s := by
  cases t with
  | tensor n i j k => cases k <;> simp [Spec.Tensors.encode]
  | list l => simp [Spec.Tensors.encode]
  | dict l => simp [Spec.Tensors.encode]

theorem Aux.encodeAll_not_node (l : List Spec.Tensors) : isNodeData (.list (Spec.Tensors.encodeAll l)) = false := by
  cases l with
  | nil => rfl
  | cons t r =>
    rw [Spec.Tensors.encodeAll]
    unfold isNodeData
    split
    · rename_i h
      simp only [Nested.list.injEq, List.cons.injEq] at h
      exact absurd h.1 (Aux.encode_not_str t _)
    · rename_i h
      simp only [Nested.list.injEq, List.cons.injEq] at h
      exact absurd h.1 (Aux.encode_not_str t _)
    · rfl

mutual
theorem Aux.flatten_encode : ∀ t : Spec.Tensors, ∃ l, flatten t.encode = .ok l ∧ l.map headName = t.layers.map some
  | .tensor n i j k => by
    cases k <;> exact ⟨_, by rw [Spec.Tensors.encode, flatten, if_pos (by rfl)], rfl⟩
  | .list l => by
    obtain ⟨r, h1, h2⟩ := Aux.flattenAll_encode l
    refine ⟨r, ?_, ?_⟩
    · rw [Spec.Tensors.encode, flatten, Aux.encodeAll_not_node, if_neg (by simp), h1]
    · rw [h2, Spec.Tensors.layers]
  | .dict l => by
    obtain ⟨r, h1, h2⟩ := Aux.flattenAll_encode l
    refine ⟨r, ?_, ?_⟩
    · rw [Spec.Tensors.encode, flatten, h1]
    · rw [h2, Spec.Tensors.layers]
theorem Aux.flattenAll_encode : ∀ l : List Spec.Tensors, ∃ r, flattenAll (Spec.Tensors.encodeAll l) = .ok r ∧
    r.map headName = (Spec.Tensors.layersAll l).map some
  | [] => ⟨[], by rw [Spec.Tensors.encodeAll, flattenAll], by rw [Spec.Tensors.layersAll]; rfl⟩
  | t :: l => by
    obtain ⟨a, h1, h2⟩ := Aux.flatten_encode t
    obtain ⟨b, h3, h4⟩ := Aux.flattenAll_encode l
    refine ⟨a ++ b, ?_, ?_⟩
    · rw [Spec.Tensors.encodeAll, flattenAll, h1, h3]
    · rw [List.map_append, h2, h4, Spec.Tensors.layersAll, List.map_append]
end

theorem Aux.any_head (l : List Nested) (names : List String) (h : l.map headName = names.map some) (n : String) :
    (l.any fun i => headName i == some n) = true ↔ n ∈ names := by
  have : (l.any fun i => headName i == some n) = (l.map headName).any fun x => x == some n := by
    rw [List.any_map]; rfl
  rw [this, h, List.any_map, List.any_eq_true]
  constructor
  · rintro ⟨x, hx, he⟩
    have : x = n := by simpa using he
    exact this ▸ hx
  · intro hn
    exact ⟨n, hn, by simp⟩

theorem Aux.unwrap_eq (n : Nested) : unwrapFirstInputName n = Spec.firstInput n := by
  unfold unwrapFirstInputName
  cases n with
  | list l =>
    cases l with
    | nil => rfl
    | cons a l =>
      cases a with
      | list l' =>
        cases l' with
        | nil => rfl
        | cons b l' =>
          cases b with
          | list l'' =>
            cases l'' with
            | nil => rfl
            | cons c l'' => cases c <;> rfl
          | _ => rfl
      | _ => rfl
  | _ => rfl

/-! ## Editing stored layers -/

theorem Aux.ofList_inj {a b : List (String × Val)} (h : Fields.ofList a = Fields.ofList b) : a = b := by
  rw [← Aux.toList_ofList a, ← Aux.toList_ofList b, h]

/-- Inversion of `Good` for a class that keeps its arguments as attributes. -/
theorem Aux.good_inv {K : String → Class} {sc : List String} {b : Bool} {j : Val} {cls : String} {args : List (String × Val)}
    (hid : (K cls).attrs = id) (h : Aux.Good K sc b j (.obj cls (.ofList args))) :
    ∃ (item : String → Val) (nested : String → Bool) (flag : Bool),
      j = Aux.stored cls ((K cls).config.map fun e => (e.1, item e.1)) flag ∧
      cls ∈ sc ∧ Spec.Faithful (K cls) ∧ (b = false → ∀ k, (K cls).fromConfig ≠ .inPlace k) ∧
      args.map Prod.fst = (K cls).params.map Prod.fst ∧
      (∀ e ∈ (K cls).config, nested e.1 = false → item e.1 = argOf args e.1 ∧ isPassive (item e.1) = false ∧
        (e.2.2 = true → item e.1 = .null)) ∧
      (∀ e ∈ (K cls).config, nested e.1 = true → isPassive (item e.1) = !e.2.2 ∧ (e.1 = "name" → e.2.2 = true)) ∧
      (∀ e ∈ (K cls).config, nested e.1 = true → Aux.Good K sc b (item e.1) (argOf args e.1)) := by
  generalize ho : Val.obj cls (.ofList args) = o at h
  cases h with
  | mk cls' args' item nested flag hsc hc hb hargs hck hplain hpass hnest =>
    simp only [Val.obj.injEq] at ho
    obtain ⟨rfl, ho⟩ := ho
    have := Aux.ofList_inj ho
    rw [hid] at this
    simp only [id] at this
    subst this
    exact ⟨item, nested, flag, rfl, hsc, hc, hb, hargs, hplain, hpass, hnest⟩

theorem Aux.put_ofList (k : String) (v : Val) (l : List (String × Val)) (hnd : (l.map Prod.fst).Nodup)
    (hk : k ∈ l.map Prod.fst) : put k v (.ofList l) = .ofList (l.map fun kv => (kv.1, if kv.1 = k then v else kv.2)) := by
  induction l with
  | nil => cases hk
  | cons a l ih =>
    obtain ⟨k', w⟩ := a
    rw [List.map_cons, List.nodup_cons] at hnd
    simp only [Fields.ofList, put, List.map_cons]
    by_cases h : k' = k
    · subst h
      rw [if_pos rfl, if_pos rfl]
      congr 1
      have : l.map (fun kv => (kv.1, if kv.1 = k' then v else kv.2)) = l := by
        conv_rhs => rw [← List.map_id l]
        refine List.map_congr_left fun kv hkv => ?_
        have : kv.1 ≠ k' := fun e => hnd.1 (e ▸ List.mem_map.2 ⟨kv, hkv, rfl⟩)
        simp [this]
      rw [this]
    · rw [if_neg h, if_neg h]
      congr 1
      refine ih hnd.2 ?_
      rcases List.mem_cons.1 hk with e | e
      · exact absurd e.symm h
      · exact e

theorem Aux.stored_get (cls : String) (items : List (String × Val)) (flag : Bool) :
    ∃ f, Aux.stored cls items flag = .dict f ∧ f.get "config" = some (.dict (.ofList items)) ∧
      f.get "class_name" = some (.str cls) ∧
      ∀ items', f.set "config" (.dict (.ofList items')) = .ofList ([("class_name", .str cls),
        ("config", .dict (.ofList items'))] ++ if flag then [("__passive_serialization__", .bool true)] else []) := by
  refine ⟨_, rfl, ?_, ?_, ?_⟩
  · simp [Fields.ofList, Fields.get]
  · simp [Fields.ofList, Fields.get]
  · intro items'
    simp [Fields.ofList, Fields.set]

theorem Aux.putConfig_stored (k : String) (v : Val) (cls : String) (items : List (String × Val)) (flag : Bool)
    (hnd : (items.map Prod.fst).Nodup) (hk : k ∈ items.map Prod.fst) :
    putConfig k v (Aux.stored cls items flag) =
      Aux.stored cls (items.map fun kv => (kv.1, if kv.1 = k then v else kv.2)) flag := by
  obtain ⟨f, h1, h2, -, h3⟩ := Aux.stored_get cls items flag
  rw [h1]
  simp only [putConfig, h2]
  rw [Aux.put_ofList k v items hnd hk, h3]
  rfl

theorem Aux.configOf_stored (cls : String) (items : List (String × Val)) (flag : Bool) :
    configOf (Aux.stored cls items flag) = some (.ofList items) := by
  obtain ⟨f, h1, h2, -, -⟩ := Aux.stored_get cls items flag
  rw [h1]
  simp only [configOf, h2]

theorem Aux.classOf_stored (cls : String) (items : List (String × Val)) (flag : Bool) :
    classOf (Aux.stored cls items flag) = some cls := by
  obtain ⟨f, h1, -, h2, -⟩ := Aux.stored_get cls items flag
  rw [h1]
  simp only [classOf, h2]

theorem Aux.get_ofList (l : List (String × Val)) (k : String) : (Fields.ofList l).get k = l.lookup k := by
  induction l with
  | nil => rfl
  | cons a l ih =>
    obtain ⟨k', v⟩ := a
    simp only [Fields.ofList, Fields.get]
    by_cases h : k' = k
    · subst h; simp [List.lookup]
    · have : (k == k') = false := by simpa using fun e : k = k' => h e.symm
      rw [if_neg h, ih]; simp [List.lookup, this]

/-- Exchanging a value that the class serializes itself. -/
theorem Aux.good_edit {K : String → Class} {sc : List String} {b : Bool} {j : Val} {cls : String}
    {args : List (String × Val)} (hid : (K cls).attrs = id) (h : Aux.Good K sc b j (.obj cls (.ofList args)))
    (k : String) (hk : k ∈ Spec.loads (K cls)) (jv v : Val) (hjv : Aux.Good K sc b jv v) (hp : isPassive jv = false)
    (hck : (K cls).check (args.map fun kv => (kv.1, if kv.1 = k then v else kv.2)) = true) :
    Aux.Good K sc b (putConfig k jv j)
      (.obj cls (.ofList (args.map fun kv => (kv.1, if kv.1 = k then v else kv.2)))) := by
  obtain ⟨item, nested, flag, rfl, hsc, hc, hb, hargs, hplain, hpass, hnest⟩ := Aux.good_inv hid h
  have hkeys : (((K cls).config.map fun e => (e.1, item e.1)).map Prod.fst) = (K cls).config.map Prod.fst := by
    rw [List.map_map]; rfl
  rw [Aux.putConfig_stored _ _ _ _ _ (by rw [hkeys]; exact hc.keys) (by rw [hkeys]; exact hc.known k hk), List.map_map]
  have hargs' : (args.map fun kv => (kv.1, if kv.1 = k then v else kv.2)).map Prod.fst = (K cls).params.map Prod.fst := by
    rw [List.map_map, ← hargs]; rfl
  have harg : ∀ e ∈ (K cls).config, argOf (args.map fun kv => (kv.1, if kv.1 = k then v else kv.2)) e.1 =
      if e.1 = k then v else argOf args e.1 := by
    intro e he
    have : e.1 ∈ args.map Prod.fst := by
      rw [hargs]; exact (hc.complete e.1).2 (List.mem_map.2 ⟨e, he, rfl⟩)
    obtain ⟨w, hw⟩ := (Aux.lookupS_isSome args e.1).2 this
    unfold argOf
    rw [Aux.lookup_map_val (fun k' w => if k' = k then v else w) args e.1, hw]
    simp
  have := Aux.Good.mk (K := K) (sc := sc) (b := b) cls (args.map fun kv => (kv.1, if kv.1 = k then v else kv.2))
    (fun k' => if k' = k then jv else item k') (fun k' => if k' = k then true else nested k') flag hsc hc hb hargs' hck
    ?_ ?_ ?_
  · rw [hid] at this
    exact this
  · intro e he hn
    split_ifs at hn with hek
    rw [harg e he, if_neg hek, if_neg hek]
    exact hplain e he hn
  · intro e he hn
    by_cases hek : e.1 = k
    · have hpre : e.2.2 = true := (hc.inverse e he).2 (hek ▸ hk)
      rw [if_pos hek, hp, hpre]
      exact ⟨rfl, fun _ => rfl⟩
    · rw [if_neg hek] at hn ⊢
      exact hpass e he hn
  · intro e he hn
    rw [harg e he]
    by_cases hek : e.1 = k
    · rw [if_pos hek, if_pos hek]; exact hjv
    · rw [if_neg hek] at hn
      rw [if_neg hek, if_neg hek]
      exact hnest e he hn

/-- A plain argument is stored as it is. -/
theorem Aux.good_plain {K : String → Class} {sc : List String} {b : Bool} {j : Val} {cls : String}
    {args : List (String × Val)} (hid : (K cls).attrs = id) (h : Aux.Good K sc b j (.obj cls (.ofList args)))
    (k : String) (hk : k ∈ (K cls).config.map Prod.fst) (hp : Spec.PlainValue (argOf args k)) :
    ∃ f, configOf j = some f ∧ f.get k = some (argOf args k) := by
  obtain ⟨item, nested, flag, rfl, hsc, hc, hb, hargs, hplain, hpass, hnest⟩ := Aux.good_inv hid h
  refine ⟨_, Aux.configOf_stored .., ?_⟩
  rw [Aux.get_ofList, Aux.lookup_map_val (fun k _ => item k) (K cls).config k]
  obtain ⟨v, hv⟩ := (Aux.lookupS_isSome _ k).2 hk
  rw [hv]
  obtain ⟨e, he, rfl⟩ := List.mem_map.1 hk
  cases hn : nested e.1 with
  | false => rw [Option.map_some, (hplain e he hn).1]
  | true =>
    obtain ⟨c, f, hf⟩ := Aux.good_isObj (hnest e he hn)
    rw [hf] at hp
    exact absurd hp (by simp [Spec.PlainValue])

/-- An object argument is stored in a form that loads. -/
theorem Aux.good_nested {K : String → Class} {sc : List String} {b : Bool} {j : Val} {cls : String}
    {args : List (String × Val)} (hid : (K cls).attrs = id) (h : Aux.Good K sc b j (.obj cls (.ofList args)))
    (k : String) (hk : k ∈ Spec.loads (K cls)) (hp : ¬ Spec.PlainValue (argOf args k)) :
    ∃ f w, configOf j = some f ∧ f.get k = some w ∧ Aux.Good K sc b w (argOf args k) := by
  obtain ⟨item, nested, flag, rfl, hsc, hc, hb, hargs, hplain, hpass, hnest⟩ := Aux.good_inv hid h
  have hk' := hc.known k hk
  refine ⟨_, item k, Aux.configOf_stored .., ?_, ?_⟩
  · rw [Aux.get_ofList, Aux.lookup_map_val (fun k _ => item k) (K cls).config k]
    obtain ⟨v, hv⟩ := (Aux.lookupS_isSome _ k).2 hk'
    rw [hv]; rfl
  · obtain ⟨e, he, rfl⟩ := List.mem_map.1 hk'
    cases hn : nested e.1 with
    | true => exact hnest e he hn
    | false =>
      obtain ⟨h1, -, h3⟩ := hplain e he hn
      have := h3 ((hc.inverse e he).2 hk)
      rw [← h1, this] at hp
      exact absurd (by simp [Spec.PlainValue]) hp

/-- A key that is not in the configuration. -/
theorem Aux.good_absent {K : String → Class} {sc : List String} {b : Bool} {j : Val} {cls : String}
    {f : Fields} (h : Aux.Good K sc b j (.obj cls f))
    (k : String) (hk : k ∉ (K cls).config.map Prod.fst) : ∃ f, configOf j = some f ∧ f.get k = none := by
  generalize ho : Val.obj cls f = o at h
  cases h with
  | mk cls' args item nested flag =>
    simp only [Val.obj.injEq] at ho
    obtain ⟨rfl, -⟩ := ho
    refine ⟨_, Aux.configOf_stored .., ?_⟩
    rw [Aux.get_ofList, Aux.lookup_map_val (fun k _ => item k) (K cls).config k]
    cases hv : (K cls).config.lookup k with
    | none => rfl
    | some v => exact absurd ((Aux.lookupS_isSome _ k).1 ⟨v, hv⟩) hk

/-! ## Layers -/

section Layers
variable (K' : String → Class) (user : List String)

theorem Aux.k_layer : classes K' "QuantizeLayer" = quantizeLayer := rfl
theorem Aux.k_v1 : classes K' "QuantizeWrapper" = quantizeWrapper := rfl
theorem Aux.k_v2 : classes K' "QuantizeWrapperV2" = quantizeWrapper := rfl
theorem Aux.k_fixed : classes K' "FixedQuantizeConfig" = fixedQuantizeConfig := rfl
theorem Aux.k_fixedQ : classes K' "FixedQuantizer" = Verif.Quant.Serialize.fixedQuantizer := rfl

/-- Made objects are objects. -/
theorem Aux.made_obj {K : String → Class} {S : String → Prop} {o : Val} (h : Spec.Made K S o) : ∃ c f, o = .obj c f := by
  cases h with
  | mk cls kwargs o hS ho =>
    unfold construct at ho
    split_ifs at ho
    cases hb : bindParams kwargs (K cls).params with
    | error e => rw [hb] at ho; cases ho
    | ok args =>
      rw [hb] at ho
      dsimp only at ho
      split_ifs at ho
      cases ho
      exact ⟨_, _, rfl⟩

theorem Aux.made_notPlain {K : String → Class} {S : String → Prop} {o : Val} (h : Spec.Made K S o) :
    ¬ Spec.PlainValue o := by
  obtain ⟨c, f, rfl⟩ := Aux.made_obj h
  simp [Spec.PlainValue]

theorem Aux.loads_wrapper : Spec.loads quantizeWrapper = ["quantize_config", "layer"] := rfl
theorem Aux.loads_layer : Spec.loads quantizeLayer = ["quantizer"] := rfl
theorem Aux.loads_fixed : Spec.loads fixedQuantizeConfig = ["config"] := rfl

/-- The layers of a quantized model are made by constructors. -/
theorem Aux.qlayer_made (l : Spec.QLayer) (h : Spec.QuantizedLayer K' user l) :
    Spec.Made (classes K') (Spec.Registered user) l.obj := by
  cases l with
  | other o => exact h.1
  | quantize n t d q =>
    have hobj : isNull q = true ∨ isObj q = true := by
      rcases h with rfl | h
      · exact .inl rfl
      · obtain ⟨c, f, rfl⟩ := Aux.made_obj h; exact .inr rfl
    refine .mk "QuantizeLayer" [("name", .str n), ("trainable", .bool t), ("dtype", .str d), ("quantizer", q)] _
      (.inl ⟨quantizeLayer, by simp [library]⟩) ?_ ?_ ?_ ?_
    · rw [Aux.k_layer]
      rcases hobj with h | h <;> simp [construct, quantizeLayer, bindParams, List.lookup, argOf, h, Spec.QLayer.obj]
    · rw [Aux.k_layer, Aux.loads_layer]
      intro kv hkv hp hm
      simp only [List.mem_cons, List.not_mem_nil, or_false] at hkv hm
      rcases hkv with rfl | rfl | rfl | rfl <;> simp at hm
      rcases h with h | h
      · exact h
      · exact absurd hp (Aux.made_notPlain h)
    · intro kv hkv hp
      simp only [List.mem_cons, List.not_mem_nil, or_false] at hkv
      rcases hkv with rfl | rfl | rfl | rfl <;> simp [Spec.PlainValue] at hp ⊢
    · intro kv hkv hp
      simp only [List.mem_cons, List.not_mem_nil, or_false] at hkv
      rcases hkv with rfl | rfl | rfl | rfl <;> try (simp [Spec.PlainValue] at hp; done)
      rcases h with rfl | h
      · simp [Spec.PlainValue] at hp
      · exact h
  | wrapped v n t d l c =>
    obtain ⟨h1, h2⟩ := h
    obtain ⟨c1, f1, rfl⟩ := Aux.made_obj h1
    obtain ⟨c2, f2, rfl⟩ := Aux.made_obj h2
    have hk : classes K' (if v then "QuantizeWrapperV2" else "QuantizeWrapper") = quantizeWrapper := by
      cases v
      · exact Aux.k_v1 K'
      · exact Aux.k_v2 K'
    refine .mk (if v then "QuantizeWrapperV2" else "QuantizeWrapper") [("name", .str n), ("trainable", .bool t),
      ("dtype", .str d), ("layer", .obj c1 f1), ("quantize_config", .obj c2 f2)] _
      (.inl ⟨quantizeWrapper, by cases v <;> simp [library]⟩) ?_ ?_ ?_ ?_
    · rw [hk]
      simp [construct, quantizeWrapper, bindParams, List.lookup, argOf, Spec.QLayer.obj, isObj, isNull]
    · rw [hk, Aux.loads_wrapper]
      intro kv hkv hp hm
      simp only [List.mem_cons, List.not_mem_nil, or_false] at hkv hm
      rcases hkv with rfl | rfl | rfl | rfl | rfl <;> simp [Spec.PlainValue] at hm hp
    · intro kv hkv hp
      simp only [List.mem_cons, List.not_mem_nil, or_false] at hkv
      rcases hkv with rfl | rfl | rfl | rfl | rfl <;> simp [Spec.PlainValue] at hp ⊢
    · intro kv hkv hp
      simp only [List.mem_cons, List.not_mem_nil, or_false] at hkv
      rcases hkv with rfl | rfl | rfl | rfl | rfl <;> try (simp [Spec.PlainValue] at hp; done)
      · exact h1
      · exact h2

theorem Aux.fixedQuantizer_made (r : Range) : Spec.Made (classes K') (Spec.Registered user) (Spec.fixedQuantizer r) := by
  refine .mk "FixedQuantizer" [("num_bits", .num r.numBits), ("init_min", .num r.lo), ("init_max", .num r.hi),
    ("narrow_range", .bool r.narrow)] _ (.inl ⟨Verif.Quant.Serialize.fixedQuantizer, by simp [library]⟩) rfl ?_ ?_ ?_
  · intro kv hkv hp hm
    rw [Aux.k_fixedQ, show Spec.loads Verif.Quant.Serialize.fixedQuantizer = [] from rfl] at hm
    cases hm
  · intro kv hkv hp
    simp only [List.mem_cons, List.not_mem_nil, or_false] at hkv
    rcases hkv with rfl | rfl | rfl | rfl <;> simp [Spec.PlainValue] at hp
  · intro kv hkv hp
    simp only [List.mem_cons, List.not_mem_nil, or_false] at hkv
    rcases hkv with rfl | rfl | rfl | rfl <;> simp [Spec.PlainValue] at hp

theorem Aux.noQuantizer_made : Spec.Made (classes K') (Spec.Registered user) (.obj "NoQuantizer" .nil) := by
  refine .mk "NoQuantizer" [] _ (.inl ⟨noArguments, by simp [library]⟩) rfl ?_ ?_ ?_ <;>
    (intro kv hkv; cases hkv)

theorem Aux.fixedConfig_made (r : Range) (c : Val) (hc : Spec.Made (classes K') (Spec.Registered user) c) :
    Spec.Made (classes K') (Spec.Registered user) (Spec.fixedConfig r c) := by
  refine .mk "FixedQuantizeConfig" [("config", c), ("num_bits", .num r.numBits), ("init_min", .num r.lo),
    ("init_max", .num r.hi), ("narrow_range", .bool r.narrow)] _ (.inl ⟨fixedQuantizeConfig, by simp [library]⟩) rfl
    ?_ ?_ ?_
  · intro kv hkv hp hm
    simp only [List.mem_cons, List.not_mem_nil, or_false] at hkv
    rw [Aux.k_fixed, Aux.loads_fixed] at hm
    rcases hkv with rfl | rfl | rfl | rfl | rfl <;> simp at hm
    exact absurd hp (Aux.made_notPlain hc)
  · intro kv hkv hp
    simp only [List.mem_cons, List.not_mem_nil, or_false] at hkv
    rcases hkv with rfl | rfl | rfl | rfl | rfl <;> simp [Spec.PlainValue] at hp ⊢
  · intro kv hkv hp
    simp only [List.mem_cons, List.not_mem_nil, or_false] at hkv
    rcases hkv with rfl | rfl | rfl | rfl | rfl <;> try (simp [Spec.PlainValue] at hp; done)
    exact hc

variable (hu : ∀ c ∈ user, Spec.Faithful (K' c))
include hu

/-- A made object, serialized. -/
theorem Aux.made_serialize {o : Val} (h : Spec.Made (classes K') (Spec.Registered user) o) :
    ∃ j, serialize (classes K') o = .ok j ∧ isPassive j = false ∧
      Aux.Good (classes K') (quantizeScope user) true j o := by
  obtain ⟨cls, items, h1, -, -, h2⟩ := Aux.made_good (b := true) (sc := quantizeScope user)
    (fun c hc => ⟨(Aux.registered hu hc).1, (Aux.registered hu hc).2, fun h => by cases h⟩) h
  exact ⟨_, h1, Aux.isPassive_stored .., h2 false⟩

/-- Wrapping a stored config. -/
theorem Aux.wrap_fixed {c j : Val} (h : Aux.Good (classes K') (quantizeScope user) true j c)
    (hc : Spec.Made (classes K') (Spec.Registered user) c) (r : Range) :
    ∃ j', wrapFixedRange (classes K') (quantizeScope user) j r = .ok j' ∧ isPassive j' = false ∧
      Aux.Good (classes K') (quantizeScope user) true j' (Spec.fixedConfig r c) := by
  obtain ⟨m, hm, -⟩ := Aux.good_loads h
  obtain ⟨j', h1, h2, h3⟩ := Aux.made_serialize K' user hu (Aux.fixedConfig_made K' user r c hc)
  refine ⟨j', ?_, h2, h3⟩
  have : fromConfig (classes K' "FixedQuantizeConfig") "FixedQuantizeConfig"
      (([("config", j), ("num_bits", .num r.numBits), ("init_min", .num r.lo), ("init_max", .num r.hi),
        ("narrow_range", .bool r.narrow)] : List (String × Val)).map fun kv =>
          (kv.1, kv.2, deserialize (classes K') (quantizeScope user) kv.2)) =
      .ok (Spec.fixedConfig r c, [("config", c), ("num_bits", .num r.numBits), ("init_min", .num r.lo),
        ("init_max", .num r.hi), ("narrow_range", .bool r.narrow)]) := by
    simp only [List.map_cons, List.map_nil, hm]
    rfl
  unfold wrapFixedRange
  dsimp only
  rw [this]
  dsimp only
  rw [h1]

/-- A stored layer. -/
def Aux.Rel (l : LConf) (p : Spec.Placed) : Prop :=
  Aux.Good (classes K') (quantizeScope user) true l.ser p.layer.obj ∧ l.inbound = p.inbound ∧
    Spec.QuantizedLayer K' user p.layer

omit hu in
theorem Aux.id_layer : (classes K' "QuantizeLayer").attrs = id := rfl
omit hu in
theorem Aux.id_wrapper (v : Bool) : (classes K' (if v then "QuantizeWrapperV2" else "QuantizeWrapper")).attrs = id := by
  cases v <;> rfl
omit hu in
theorem Aux.k_wrapper (v : Bool) : classes K' (if v then "QuantizeWrapperV2" else "QuantizeWrapper") = quantizeWrapper := by
  cases v <;> rfl

/-- Giving a `QuantizeLayer` another quantizer. -/
theorem Aux.rel_requantize {l : LConf} {p : Spec.Placed} (h : Aux.Rel K' user l p) {q jq : Val}
    (hq : Spec.Made (classes K') (Spec.Registered user) q)
    (hg : Aux.Good (classes K') (quantizeScope user) true jq q) (hp : isPassive jq = false)
    (hl : ∃ n t d q0, p.layer = .quantize n t d q0) :
    Aux.Rel K' user { l with ser := putConfig "quantizer" jq l.ser } { p with layer := p.layer.requantize q } := by
  obtain ⟨lay, inb⟩ := p
  obtain ⟨n, t, d, q0, rfl⟩ := hl
  obtain ⟨h1, h2, h3⟩ := h
  refine ⟨?_, h2, .inr hq⟩
  have := Aux.good_edit (Aux.id_layer K') h1 "quantizer" (by rw [Aux.k_layer, Aux.loads_layer]; simp) jq q hg hp (by
    obtain ⟨c, f, rfl⟩ := Aux.made_obj hq
    rw [Aux.k_layer]
    simp [quantizeLayer, argOf, List.lookup, isObj])
  simpa [Spec.QLayer.obj, Spec.QLayer.requantize] using this

/-- Fixing the outputs of a layer. -/
theorem Aux.rel_fixOutput {l : LConf} {p : Spec.Placed} (h : Aux.Rel K' user l p) (r : Range) :
    ∃ l', setOutput (classes K') (quantizeScope user) r l = .ok l' ∧
      Aux.Rel K' user l' { p with layer := p.layer.fixOutput r } := by
  obtain ⟨lay, inb⟩ := p
  obtain ⟨h1, h2, h3⟩ := h
  dsimp only at h1 h2 h3
  cases lay with
  | quantize n t d q =>
    obtain ⟨f, hf, hg⟩ := Aux.good_absent h1 "quantize_config" (by rw [Aux.k_layer]; decide)
    refine ⟨l, ?_, h1, h2, h3⟩
    unfold setOutput quantizeConfigOf
    rw [hf]; dsimp only; rw [hg]
  | other o =>
    obtain ⟨c, f, rfl⟩ := Aux.made_obj h3.1
    obtain ⟨f, hf, hg⟩ := Aux.good_absent h1 "quantize_config" (h3.2 _ _ rfl)
    refine ⟨l, ?_, h1, h2, h3⟩
    unfold setOutput quantizeConfigOf
    rw [hf]; dsimp only; rw [hg]
  | wrapped v n t d ly c =>
    have harg : argOf [("name", Val.str n), ("trainable", .bool t), ("dtype", .str d), ("layer", ly),
        ("quantize_config", c)] "quantize_config" = c := by simp [argOf, List.lookup]
    obtain ⟨f, w, hf, hg, hw⟩ := Aux.good_nested (Aux.id_wrapper K' v) h1 "quantize_config"
      (by rw [Aux.k_wrapper, Aux.loads_wrapper]; simp) (by rw [harg]; exact Aux.made_notPlain h3.2)
    rw [harg] at hw
    obtain ⟨j', hj, hjp, hjg⟩ := Aux.wrap_fixed K' user hu hw h3.2 r
    refine ⟨{ l with ser := putConfig "quantize_config" j' l.ser }, ?_, ?_, h2, h3.1, Aux.fixedConfig_made K' user r c h3.2⟩
    · unfold setOutput quantizeConfigOf
      rw [hf]; dsimp only; rw [hg]; dsimp only; rw [hj]
    · have := Aux.good_edit (Aux.id_wrapper K' v) h1 "quantize_config"
        (by rw [Aux.k_wrapper, Aux.loads_wrapper]; simp) j' _ hjg hjp (by
          obtain ⟨c1, f1, rfl⟩ := Aux.made_obj h3.1
          rw [Aux.k_wrapper]
          simp [quantizeWrapper, argOf, List.lookup, isObj, isNull, Spec.fixedConfig])
      simpa [Spec.QLayer.obj, Spec.QLayer.fixOutput] using this

/-- The name of a stored layer. -/
theorem Aux.rel_name {l : LConf} {p : Spec.Placed} (h : Aux.Rel K' user l p) {n : String} (hn : p.layer.name? = some n) :
    nameOf l.ser = some n := by
  obtain ⟨lay, inb⟩ := p
  obtain ⟨h1, h2, h3⟩ := h
  dsimp only at h1 h2 h3 hn
  cases lay with
  | other o => simp [Spec.QLayer.name?] at hn
  | quantize n' t d q =>
    simp only [Spec.QLayer.name?, Option.some.injEq] at hn
    subst hn
    obtain ⟨f, hf, hg⟩ := Aux.good_plain (Aux.id_layer K') h1 "name" (by rw [Aux.k_layer]; decide)
      (by simp [argOf, List.lookup, Spec.PlainValue])
    unfold nameOf
    rw [hf]; dsimp only; rw [hg]
    simp [argOf, List.lookup]
  | wrapped v n' t d ly c =>
    simp only [Spec.QLayer.name?, Option.some.injEq] at hn
    subst hn
    obtain ⟨f, hf, hg⟩ := Aux.good_plain (Aux.id_wrapper K' v) h1 "name" (by rw [Aux.k_wrapper]; decide)
      (by simp [argOf, List.lookup, Spec.PlainValue])
    unfold nameOf
    rw [hf]; dsimp only; rw [hg]
    simp [argOf, List.lookup]

omit hu in
theorem Aux.fixOutput_other {o : Val} (r : Range) (outputs : List String) (inb : Nested) :
    Spec.Placed.fixOutput r outputs ⟨.other o, inb⟩ = ⟨.other o, inb⟩ := rfl

/-! ## Whole models -/

theorem Aux.getLayers_rel : ∀ ps : List Spec.Placed, (∀ p ∈ ps, Spec.QuantizedLayer K' user p.layer) →
    ∃ ls, getLayers (classes K') (ps.map Spec.Placed.toM) = .ok ls ∧ List.Forall₂ (Aux.Rel K' user) ls ps
  | [], _ => ⟨[], rfl, .nil⟩
  | p :: ps, h => by
    obtain ⟨ls, h1, h2⟩ := Aux.getLayers_rel ps fun q hq => h q (List.mem_cons_of_mem _ hq)
    have hp := h p (List.mem_cons_self ..)
    obtain ⟨j, hj, -, hg⟩ := Aux.made_serialize K' user hu (Aux.qlayer_made K' user p.layer hp)
    refine ⟨⟨j, p.inbound⟩ :: ls, ?_, .cons ⟨hg, rfl, hp⟩ h2⟩
    rw [List.map_cons, getLayers, h1]
    simp only [Spec.Placed.toM, hj]

theorem Aux.fromLayers_rel {ls : List LConf} {ps : List Spec.Placed} (h : List.Forall₂ (Aux.Rel K' user) ls ps) :
    fromLayers (classes K') (quantizeScope user) ls = .ok (ps.map Spec.Placed.toM) := by
  induction h with
  | nil => rfl
  | cons hr _ ih =>
    obtain ⟨m, hm, -⟩ := Aux.good_loads hr.1
    rw [fromLayers, hm, ih]
    dsimp only
    rw [List.map_cons, hr.2.1]
    rfl

theorem Aux.setInput_rel {q jq : Val} (hq : Spec.Made (classes K') (Spec.Registered user) q)
    (hg : Aux.Good (classes K') (quantizeScope user) true jq q) (hp : isPassive jq = false)
    {inputs : List Nested} {names : List String} (hn : inputs.map headName = names.map some)
    {ls : List LConf} {ps : List Spec.Placed} (h : List.Forall₂ (Aux.Rel K' user) ls ps)
    (hfed : ∀ p ∈ ps, ∀ n, Spec.firstInput p.inbound = some n → n ∈ names → ∃ a b c d, p.layer = .quantize a b c d) :
    List.Forall₂ (Aux.Rel K' user) (ls.map (setInput inputs jq)) (ps.map (Spec.Placed.fixInput q names)) := by
  induction h with
  | nil => exact .nil
  | @cons l p ls ps hr _ ih =>
    refine .cons ?_ (ih fun p hp => hfed p (List.mem_cons_of_mem _ hp))
    unfold setInput fedByInput Spec.Placed.fixInput
    rw [Aux.unwrap_eq, hr.2.1]
    cases hf : Spec.firstInput p.inbound with
    | none => simpa using hr
    | some n =>
      dsimp only
      by_cases hm : n ∈ names
      · rw [if_pos ((Aux.any_head _ _ hn n).2 hm), if_pos hm]
        have hx := Aux.rel_requantize K' user hu hr hq hg hp (hfed p (List.mem_cons_self ..) n hf hm)
        rw [hr.2.1] at hx
        exact hx
      · rw [if_neg (fun hc => hm ((Aux.any_head _ _ hn n).1 hc)), if_neg hm]
        exact hr

theorem Aux.setOutputs_rel (r : Range) {outputs : List Nested} {names : List String}
    (hn : outputs.map headName = names.map some)
    {ls : List LConf} {ps : List Spec.Placed} (h : List.Forall₂ (Aux.Rel K' user) ls ps) :
    ∃ ls', setOutputs (classes K') (quantizeScope user) r outputs ls = .ok ls' ∧
      List.Forall₂ (Aux.Rel K' user) ls' (ps.map (Spec.Placed.fixOutput r names)) := by
  induction h with
  | nil => exact ⟨[], rfl, .nil⟩
  | @cons l p ls ps hr _ ih =>
    obtain ⟨ls', h1, h2⟩ := ih
    have hone : ∃ l', (if isOutput outputs l then setOutput (classes K') (quantizeScope user) r l else .ok l) = .ok l' ∧
        Aux.Rel K' user l' (p.fixOutput r names) := by
      obtain ⟨l', h3, h4⟩ := Aux.rel_fixOutput K' user hu hr r
      cases hnm : p.layer.name? with
      | none =>
        have hother : { p with layer := p.layer.fixOutput r } = p := by
          obtain ⟨lay, inb⟩ := p
          cases lay <;> simp [Spec.QLayer.name?] at hnm
          rfl
        have hl : l' = l := by
          obtain ⟨lay, inb⟩ := p
          cases lay with
          | quantize => simp [Spec.QLayer.name?] at hnm
          | wrapped => simp [Spec.QLayer.name?] at hnm
          | other o =>
            obtain ⟨c, f, rfl⟩ := Aux.made_obj hr.2.2.1
            obtain ⟨f', hf, hg⟩ := Aux.good_absent hr.1 "quantize_config" (hr.2.2.2 _ _ rfl)
            unfold setOutput quantizeConfigOf at h3
            rw [hf] at h3; dsimp only at h3; rw [hg] at h3
            cases h3; rfl
        subst hl
        have hfix : p.fixOutput r names = p := by unfold Spec.Placed.fixOutput; rw [hnm]
        rw [hfix]
        refine ⟨l', ?_, hr⟩
        split_ifs
        · exact h3
        · rfl
      | some n =>
        have hname := Aux.rel_name K' user hu hr hnm
        unfold isOutput Spec.Placed.fixOutput
        rw [hname, hnm]
        dsimp only
        by_cases hm : n ∈ names
        · rw [if_pos ((Aux.any_head _ _ hn n).2 hm), if_pos hm]
          exact ⟨l', h3, h4⟩
        · rw [if_neg (fun hc => hm ((Aux.any_head _ _ hn n).1 hc)), if_neg hm]
          exact ⟨l, rfl, hr⟩
    obtain ⟨l', h3, h4⟩ := hone
    refine ⟨l' :: ls', ?_, .cons h4 h2⟩
    rw [setOutputs, h3, h1]

end Layers

/-! ## C87 -/

section C87
variable {W : Type*} (K' : String → Class) (user : List String) (hu : ∀ c ∈ user, Spec.Faithful (K' c))
include hu

/-- **C87 (functional models).**  In a quantized functional model in which the layers fed first by an input of the
model are `QuantizeLayer`s, fixing the ranges gives exactly those layers a `FixedQuantizer` with the input range, gives
exactly the quantized output layers a `FixedQuantizeConfig` with the output range over the config they had, and
changes no other layer, no connection, input or output.  All variables are newly initialised. -/
theorem C87_functional_partial (inputs outputs : Spec.Tensors) (ps : List Spec.Placed) (weights : String → Option W)
    (rin rout : Range) (hq : ∀ p ∈ ps, Spec.QuantizedLayer K' user p.layer)
    (hfed : ∀ p ∈ ps, ∀ n, Spec.firstInput p.inbound = some n → n ∈ inputs.layers →
      ∃ a b c d, p.layer = .quantize a b c d) :
    fixInputOutputRange (classes K') (quantizeScope user) rin rout
      ⟨true, ps.map Spec.Placed.toM, inputs.encode, outputs.encode, weights⟩ =
    .ok ⟨true, ((ps.map (Spec.Placed.fixInput (Spec.fixedQuantizer rin) inputs.layers)).map
      (Spec.Placed.fixOutput rout outputs.layers)).map Spec.Placed.toM, inputs.encode, outputs.encode,
      fun _ => none⟩ := by
  obtain ⟨ls, h1, h2⟩ := Aux.getLayers_rel K' user hu ps hq
  obtain ⟨jq, hj, hjp, hjg⟩ := Aux.made_serialize K' user hu (Aux.fixedQuantizer_made K' user rin)
  obtain ⟨ins, h3, h4⟩ := Aux.flatten_encode inputs
  obtain ⟨outs, h5, h6⟩ := Aux.flatten_encode outputs
  have h7 := Aux.setInput_rel K' user hu (Aux.fixedQuantizer_made K' user rin) hjg hjp h4 h2 hfed
  obtain ⟨ls', h8, h9⟩ := Aux.setOutputs_rel K' user hu rout h6 h7
  have h10 := Aux.fromLayers_rel K' user hu h9
  unfold fixInputOutputRange changeRanges serializeQuantizer
  dsimp only
  rw [h1, show fixedQuantizerObj rin = Spec.fixedQuantizer rin from rfl, hj]
  dsimp only
  rw [if_pos rfl, h3]
  dsimp only
  rw [h5]
  dsimp only
  rw [h8]
  dsimp only [rebuild]
  rw [h10]

/-- **C87 (removing the input range, functional models).** -/
theorem C87_remove_functional_partial (inputs outputs : Spec.Tensors) (ps : List Spec.Placed) (weights : String → Option W)
    (hq : ∀ p ∈ ps, Spec.QuantizedLayer K' user p.layer)
    (hfed : ∀ p ∈ ps, ∀ n, Spec.firstInput p.inbound = some n → n ∈ inputs.layers →
      ∃ a b c d, p.layer = .quantize a b c d) :
    removeInputRange (classes K') (quantizeScope user)
      ⟨true, ps.map Spec.Placed.toM, inputs.encode, outputs.encode, weights⟩ =
    .ok ⟨true, (ps.map (Spec.Placed.fixInput (.obj "NoQuantizer" .nil) inputs.layers)).map Spec.Placed.toM,
      inputs.encode, outputs.encode, fun _ => none⟩ := by
  obtain ⟨ls, h1, h2⟩ := Aux.getLayers_rel K' user hu ps hq
  obtain ⟨jq, hj, hjp, hjg⟩ := Aux.made_serialize K' user hu (Aux.noQuantizer_made K' user)
  obtain ⟨ins, h3, h4⟩ := Aux.flatten_encode inputs
  have h7 := Aux.setInput_rel K' user hu (Aux.noQuantizer_made K' user) hjg hjp h4 h2 hfed
  have h10 := Aux.fromLayers_rel K' user hu h7
  unfold removeInputRange changeRanges serializeQuantizer
  dsimp only
  rw [h1, hj]
  dsimp only
  rw [if_pos rfl, h3]
  dsimp only [rebuild]
  rw [h10]

theorem Aux.setLast_rel (r : Range) {ls : List LConf} {ps : List Spec.Placed}
    (h : List.Forall₂ (Aux.Rel K' user) ls ps) (hne : ps ≠ []) :
    ∃ ls', setLast (classes K') (quantizeScope user) r ls = .ok ls' ∧ List.Forall₂ (Aux.Rel K' user) ls'
      (Spec.changeLast (fun p => { p with layer := p.layer.fixOutput r }) ps) := by
  induction h with
  | nil => exact absurd rfl hne
  | @cons l p ls ps hr hrest ih =>
    cases hrest with
    | nil =>
      obtain ⟨l', h1, h2⟩ := Aux.rel_fixOutput K' user hu hr r
      refine ⟨[l'], ?_, .cons h2 .nil⟩
      rw [setLast, h1]
    | @cons l2 p2 ls2 ps2 hr2 hrest2 =>
      obtain ⟨ls', h1, h2⟩ := ih (by simp)
      refine ⟨l :: ls', ?_, ?_⟩
      · rw [setLast, h1]
        simp
      · rw [Spec.changeLast]
        · exact .cons hr h2
        · simp

theorem Aux.setSecond_rel {q jq : Val} (hq : Spec.Made (classes K') (Spec.Registered user) q)
    (hg : Aux.Good (classes K') (quantizeScope user) true jq q) (hp : isPassive jq = false)
    {ls : List LConf} {a p : Spec.Placed} {rest : List Spec.Placed}
    (h : List.Forall₂ (Aux.Rel K' user) ls (a :: p :: rest)) (hl : ∃ n t d q0, p.layer = .quantize n t d q0) :
    ∃ ls', setSecond jq ls = .ok ls' ∧ List.Forall₂ (Aux.Rel K' user) ls'
      (a :: { p with layer := p.layer.requantize q } :: rest) := by
  cases h with
  | @cons l1 _ ls1 _ h1 h =>
    cases h with
    | @cons l2 _ ls2 _ h2 h =>
      refine ⟨l1 :: { l2 with ser := putConfig "quantizer" jq l2.ser } :: ls2, ?_,
        .cons h1 (.cons (Aux.rel_requantize K' user hu h2 hq hg hp hl) h)⟩
      rw [setSecond, if_pos]
      obtain ⟨lay, inb⟩ := p
      obtain ⟨n, t, d, q0, rfl⟩ := hl
      obtain ⟨item, nested, flag, hs, -⟩ := Aux.good_inv (Aux.id_layer K') h2.1
      rw [hs]
      exact Aux.classOf_stored ..

/-- **C87 (Sequential models).**  In a Sequential model whose second layer (after the input layer) is a
`QuantizeLayer`, that layer gets a `FixedQuantizer` with the input range, the last layer, if quantized, a
`FixedQuantizeConfig` with the output range, and nothing else is changed; the variables are newly initialised. -/
theorem C87_sequential_partial (ins outs : Nested) (a p : Spec.Placed) (rest : List Spec.Placed) (weights : String → Option W)
    (rin rout : Range) (hq : ∀ x ∈ a :: p :: rest, Spec.QuantizedLayer K' user x.layer)
    (hl : ∃ n t d q, p.layer = .quantize n t d q) :
    fixInputOutputRange (classes K') (quantizeScope user) rin rout
      ⟨false, (a :: p :: rest).map Spec.Placed.toM, ins, outs, weights⟩ =
    .ok ⟨false, (Spec.changeLast (fun x : Spec.Placed => { x with layer := x.layer.fixOutput rout })
        (a :: { p with layer := p.layer.requantize (Spec.fixedQuantizer rin) } :: rest)).map Spec.Placed.toM,
      ins, outs, fun _ => none⟩ := by
  obtain ⟨ls, h1, h2⟩ := Aux.getLayers_rel K' user hu _ hq
  obtain ⟨jq, hj, hjp, hjg⟩ := Aux.made_serialize K' user hu (Aux.fixedQuantizer_made K' user rin)
  obtain ⟨ls', h3, h4⟩ := Aux.setSecond_rel K' user hu (Aux.fixedQuantizer_made K' user rin) hjg hjp h2 hl
  obtain ⟨ls'', h5, h6⟩ := Aux.setLast_rel K' user hu rout h4 (by simp)
  have h10 := Aux.fromLayers_rel K' user hu h6
  unfold fixInputOutputRange changeRanges serializeQuantizer
  dsimp only
  rw [h1, show fixedQuantizerObj rin = Spec.fixedQuantizer rin from rfl, hj]
  dsimp only
  rw [if_neg (by simp), h3]
  dsimp only
  rw [h5]
  dsimp only [rebuild]
  rw [h10]

/-- **C87 (removing the input range, Sequential models).** -/
theorem C87_remove_sequential_partial (ins outs : Nested) (a p : Spec.Placed) (rest : List Spec.Placed)
    (weights : String → Option W) (hq : ∀ x ∈ a :: p :: rest, Spec.QuantizedLayer K' user x.layer)
    (hl : ∃ n t d q, p.layer = .quantize n t d q) :
    removeInputRange (classes K') (quantizeScope user)
      ⟨false, (a :: p :: rest).map Spec.Placed.toM, ins, outs, weights⟩ =
    .ok ⟨false, (a :: { p with layer := p.layer.requantize (.obj "NoQuantizer" .nil) } :: rest).map Spec.Placed.toM,
      ins, outs, fun _ => none⟩ := by
  obtain ⟨ls, h1, h2⟩ := Aux.getLayers_rel K' user hu _ hq
  obtain ⟨jq, hj, hjp, hjg⟩ := Aux.made_serialize K' user hu (Aux.noQuantizer_made K' user)
  obtain ⟨ls', h3, h4⟩ := Aux.setSecond_rel K' user hu (Aux.noQuantizer_made K' user) hjg hjp h2 hl
  have h10 := Aux.fromLayers_rel K' user hu h4
  unfold removeInputRange changeRanges serializeQuantizer
  dsimp only
  rw [h1, hj]
  dsimp only
  rw [if_neg (by simp), h3]
  dsimp only [rebuild]
  rw [h10]

/-- **C87 (rejected).**  A Sequential model whose second layer is another layer is rejected with `ValueError`. -/
theorem C87_rejects (ins outs : Nested) (a p : Spec.Placed) (rest : List Spec.Placed) (weights : String → Option W)
    (rin rout : Range) (hq : ∀ x ∈ a :: p :: rest, Spec.QuantizedLayer K' user x.layer)
    (hl : ∀ f, p.layer.obj ≠ .obj "QuantizeLayer" f) :
    fixInputOutputRange (classes K') (quantizeScope user) rin rout
      ⟨false, (a :: p :: rest).map Spec.Placed.toM, ins, outs, weights⟩ = .error .notQuantized := by
  obtain ⟨ls, h1, h2⟩ := Aux.getLayers_rel K' user hu _ hq
  obtain ⟨jq, hj, hjp, hjg⟩ := Aux.made_serialize K' user hu (Aux.fixedQuantizer_made K' user rin)
  have h3 : setSecond jq ls = .error .notQuantized := by
    cases h2 with
    | @cons l1 _ ls1 _ h1 h =>
      cases h with
      | @cons l2 _ ls2 _ h2 h =>
        rw [setSecond, if_neg]
        intro hc
        have hg := h2.1
        generalize hs : l2.ser = s at hg hc
        generalize ho : p.layer.obj = o at hg
        cases hg with
        | mk cls args item nested flag =>
          rw [Aux.classOf_stored] at hc
          simp only [Option.some.injEq] at hc
          subst hc
          exact hl _ ho
  unfold fixInputOutputRange changeRanges serializeQuantizer
  dsimp only
  rw [h1, show fixedQuantizerObj rin = Spec.fixedQuantizer rin from rfl, hj]
  dsimp only
  rw [if_neg (by simp), h3]

end C87

/-! ### Non-vacuity -/

/-- A quantized functional model: input, `QuantizeLayer`, quantized dense layer. -/
def Example.rangeModel : List Spec.Placed := [
  ⟨.other (.obj "InputLayer" (.ofList [("name", .str "in"), ("units", .num 3)])), .list []⟩,
  ⟨.quantize "quantize_layer" true "float32" (.obj "NoQuantizer" .nil),
    .list [.list [.list [.str "in", .num 0, .num 0, .kwargs]]]⟩,
  ⟨.wrapped true "quant_dense" true "float32" Example.serDense Example.serConf,
    .list [.list [.list [.str "quantize_layer", .num 0, .num 0, .kwargs]]]⟩]

/-- The hypotheses of `C87_functional_partial` (and of `C87_sequential_partial`) are met, and inputs and outputs are changed. -/
example : (∀ p ∈ Example.rangeModel, Spec.QuantizedLayer (fun _ => Example.serDenseClass) ["Dense", "InputLayer"] p.layer) ∧
    (∀ p ∈ Example.rangeModel, ∀ n, Spec.firstInput p.inbound = some n →
      n ∈ (Spec.Tensors.list [.tensor "in" 0 0 false]).layers → ∃ a b c d, p.layer = .quantize a b c d) ∧
    (∀ c ∈ ["Dense", "InputLayer"], Spec.Faithful Example.serDenseClass) := by
  refine ⟨?_, ?_, fun _ _ => Example.serDense_faithful⟩
  · intro p hp
    simp only [Example.rangeModel, List.mem_cons, List.not_mem_nil, or_false] at hp
    rcases hp with rfl | rfl | rfl
    · refine ⟨?_, ?_⟩
      · refine .mk "InputLayer" [("name", .str "in"), ("units", .num 3)] _ (.inr ⟨by simp, by decide⟩) rfl ?_ ?_ ?_
        · intro kv h _ h'; exact absurd h' (by rw [show Spec.loads _ = [] from rfl]; simp)
        · intro kv h; simp only [List.mem_cons, List.not_mem_nil, or_false] at h
          rcases h with rfl | rfl <;> simp [Spec.PlainValue]
        · intro kv h; simp only [List.mem_cons, List.not_mem_nil, or_false] at h
          rcases h with rfl | rfl <;> simp [Spec.PlainValue]
      · intro cls f h
        cases h
        decide
    · exact .inr (Aux.noQuantizer_made _ _)
    · refine ⟨?_, ?_⟩
      · refine .mk "Dense" [("name", .str "dense"), ("units", .num 3)] _ (.inr ⟨by simp, by decide⟩) rfl ?_ ?_ ?_
        · intro kv h _ h'; exact absurd h' (by rw [show Spec.loads _ = [] from rfl]; simp)
        · intro kv h; simp only [List.mem_cons, List.not_mem_nil, or_false] at h
          rcases h with rfl | rfl <;> simp [Spec.PlainValue]
        · intro kv h; simp only [List.mem_cons, List.not_mem_nil, or_false] at h
          rcases h with rfl | rfl <;> simp [Spec.PlainValue]
      · refine .mk "Default8BitQuantizeConfig" [("weight_attrs", .strs ["kernel"]),
          ("activation_attrs", .strs ["activation"]), ("quantize_output", .bool false)] _
          (.inl ⟨defaultConfig8 "LastValueQuantizer" false, by simp [library]⟩) rfl ?_ ?_ ?_
        · intro kv h _ h'; exact absurd h' (by rw [show Spec.loads _ = [] from rfl]; simp)
        · intro kv h; simp only [List.mem_cons, List.not_mem_nil, or_false] at h
          rcases h with rfl | rfl | rfl <;> simp [Spec.PlainValue]
        · intro kv h; simp only [List.mem_cons, List.not_mem_nil, or_false] at h
          rcases h with rfl | rfl | rfl <;> simp [Spec.PlainValue]
  · intro p hp n hn hm
    simp only [Example.rangeModel, List.mem_cons, List.not_mem_nil, or_false] at hp
    rcases hp with rfl | rfl | rfl
    · simp [Spec.firstInput] at hn
    · exact ⟨_, _, _, _, rfl⟩
    · simp only [Spec.firstInput, Option.some.injEq] at hn
      subst hn
      simp [Spec.Tensors.layers, Spec.Tensors.layersAll] at hm

/-! ### Where C87 fails -/

/-- C87 fails for a partially quantized functional model with an input that feeds a layer that is not quantized (such
models are what `quantize_apply` makes of partially annotated ones): the layer is given an argument `quantizer` it does
not know. -/
theorem C87_partial_model_violated : ∃ m : Model ℕ,
    m.layers = [⟨.obj "InputLayer" (.ofList [("name", .str "in"), ("units", .num 3)]), .list []⟩,
      ⟨Example.serDense, .list [.list [.list [.str "in", .num 0, .num 0, .kwargs]]]⟩] ∧
    ∀ rin rout, fixInputOutputRange (classes fun _ => Example.serDenseClass) (quantizeScope ["Dense", "InputLayer"])
      rin rout m = .error (.load .type) :=
  ⟨⟨true, _, .list [.list [.str "in", .num 0, .num 0]], .list [.list [.str "dense", .num 0, .num 0]], fun _ => none⟩,
    rfl, fun _ _ => rfl⟩

/-- C87 fails for a Sequential model with one layer: instead of being rejected with `ValueError`, an `IndexError`. -/
theorem C87_one_layer_violated {W : Type*} (K' : String → Class) (user : List String)
    (hu : ∀ c ∈ user, Spec.Faithful (K' c)) (ins outs : Nested) (a : Spec.Placed) (weights : String → Option W)
    (rin rout : Range) (hq : Spec.QuantizedLayer K' user a.layer) :
    fixInputOutputRange (classes K') (quantizeScope user) rin rout ⟨false, [a.toM], ins, outs, weights⟩ =
      .error .index := by
  obtain ⟨ls, h1, h2⟩ := Aux.getLayers_rel K' user hu [a] (by simpa using hq)
  obtain ⟨jq, hj, hjp, hjg⟩ := Aux.made_serialize K' user hu (Aux.fixedQuantizer_made K' user rin)
  have h3 : setSecond jq ls = .error .index := by
    cases h2 with
    | cons h h' => cases h'; rfl
  unfold fixInputOutputRange changeRanges serializeQuantizer
  dsimp only
  rw [show [a.toM] = [a].map Spec.Placed.toM from rfl, h1,
    show fixedQuantizerObj rin = Spec.fixedQuantizer rin from rfl, hj]
  dsimp only
  rw [if_neg (by simp), h3]

/-- C87 fails for the weights: whatever the values of the variables were, the new model does not have them. -/
theorem C87_weights_violated {W : Type*} (K : String → Class) (scope : List String) (rin rout : Range) (m m' : Model W)
    (h : fixInputOutputRange K scope rin rout m = .ok m') : m'.weights = fun _ => none := by
  have hreb : ∀ l, rebuild K scope m l = .ok m' → m'.weights = fun _ => none := by
    intro l hl
    unfold rebuild at hl
    cases hf : fromLayers K scope l with
    | error e => rw [hf] at hl; cases hl
    | ok r => rw [hf] at hl; cases hl; rfl
  unfold fixInputOutputRange changeRanges at h
  split at h
  · cases h
  · cases h
  · split_ifs at h
    · split at h
      · cases h
      · dsimp only at h
        split at h
        · cases h
        · split at h
          · cases h
          · exact hreb _ h
    · split at h
      · cases h
      · dsimp only at h
        split at h
        · cases h
        · exact hreb _ h

end Verif.Props
