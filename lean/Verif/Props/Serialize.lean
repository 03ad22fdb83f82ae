import Verif.Quant.Serialize
import Verif.Quant.PreserveRegistry
import Mathlib.Data.List.Basic
import Mathlib.Data.List.Nodup

/-!
# Property C86: quantize configs, quantizers and wrappers survive saving and loading
-/

set_option linter.unusedSectionVars false
namespace Verif.Props
open Verif Verif.Quant.Config Verif.Quant.Serialize

/-! ## Specification -/

/-- A value that is neither an object nor a dictionary. -/
def Spec.PlainValue : Val → Prop
  | .dict _ => False
  | .obj _ _ => False
  | _ => True

/-- The items `from_config` deserializes itself. -/
def Spec.loads (c : Class) : List String :=
  match c.fromConfig with
  | .plain => []
  | .inPlace k => [k]
  | .copy ks => ks

/-- `get_config` of a class returns, under the name of each constructor parameter, the attribute that holds the
argument, and `from_config` deserializes exactly what `get_config` serialized. -/
structure Spec.Faithful (c : Class) : Prop where
  params : (c.params.map Prod.fst).Nodup
  keys : (c.config.map Prod.fst).Nodup
  complete : ∀ p, p ∈ c.params.map Prod.fst ↔ p ∈ c.config.map Prod.fst
  holds : ∀ args : List (String × Val), args.map Prod.fst = c.params.map Prod.fst →
    ∀ e ∈ c.config, (c.attrs args).lookup e.2.1 = args.lookup e.1
  inverse : ∀ e ∈ c.config, e.2.2 = true ↔ e.1 ∈ Spec.loads c
  known : ∀ k ∈ Spec.loads c, k ∈ c.config.map Prod.fst
  defaults : ∀ p v, (p, some v) ∈ c.params → Spec.PlainValue v ∧ (p ∈ Spec.loads c → v = .null)

/-- Objects made by calling constructors of the classes `S`, with plain values and such objects as arguments. -/
inductive Spec.Made (K : String → Class) (S : String → Prop) : Val → Prop
  | mk (cls : String) (kwargs : List (String × Val)) (o : Val) (hS : S cls)
      (ho : construct (K cls) cls kwargs = .ok o)
      (hplain : ∀ kv ∈ kwargs, Spec.PlainValue kv.2 → kv.1 ∈ Spec.loads (K cls) → kv.2 = .null)
      (hname : ∀ kv ∈ kwargs, ¬ Spec.PlainValue kv.2 → kv.1 ≠ "name")
      (hobj : ∀ kv ∈ kwargs, ¬ Spec.PlainValue kv.2 → Spec.Made K S kv.2) : Spec.Made K S o

/-- Loading from the same stored value again and again: the `n`-th time. -/
def Spec.reload (K : String → Class) (scope : List String) (j : Val) : ℕ → Except Err (Val × Val)
  | 0 => deserialize K scope j
  | n + 1 =>
    match Spec.reload K scope j n with
    | .error e => .error e
    | .ok (_, m) => deserialize K scope m

/-! ## Lemmas -/

theorem Aux.toList_ofList (l : List (String × Val)) : (Fields.ofList l).toList = l := by
  induction l with
  | nil => rfl
  | cons a l ih => obtain ⟨k, v⟩ := a; simp [Fields.ofList, Fields.toList, ih]

theorem Aux.keys_ofList (l : List (String × Val)) : (Fields.ofList l).keys = l.map Prod.fst := by
  induction l with
  | nil => rfl
  | cons a l ih => obtain ⟨k, v⟩ := a; simp [Fields.ofList, Fields.keys, ih]

theorem Aux.serializeAll_ofList (K : String → Class) (l : List (String × Val)) :
    serializeAll K (.ofList l) = l.map fun kv => (kv.1, kv.2, serialize K kv.2) := by
  induction l with
  | nil => simp [Fields.ofList, serializeAll]
  | cons a l ih => obtain ⟨k, v⟩ := a; simp [Fields.ofList, serializeAll, ih]

theorem Aux.deserializeAll_ofList (K : String → Class) (sc : List String) (l : List (String × Val)) :
    deserializeAll K sc (.ofList l) = l.map fun kv => (kv.1, kv.2, deserialize K sc kv.2) := by
  induction l with
  | nil => simp [Fields.ofList, deserializeAll]
  | cons a l ih => obtain ⟨k, v⟩ := a; simp [Fields.ofList, deserializeAll, ih]

theorem Aux.lookup_map_val {β γ : Type*} (f : String → β → γ) (l : List (String × β)) (k : String) :
    (l.map fun kv => (kv.1, f kv.1 kv.2)).lookup k = (l.lookup k).map (f k) := by
  induction l with
  | nil => rfl
  | cons a l ih =>
    obtain ⟨k', v⟩ := a
    by_cases h : k = k'
    · subst h; simp [List.lookup]
    · have : (k == k') = false := by simpa using h
      simp [List.lookup, this, ih]

theorem Aux.lookupS_isSome {β : Type*} (l : List (String × β)) (k : String) :
    (∃ v, l.lookup k = some v) ↔ k ∈ l.map Prod.fst := by
  induction l with
  | nil => simp [List.lookup]
  | cons a l ih =>
    obtain ⟨k', v⟩ := a
    by_cases h : k = k'
    · subst h; simp [List.lookup]
    · have : (k == k') = false := by simpa using h
      simp only [List.lookup, this, ih, List.map_cons, List.mem_cons, h, false_or]

theorem Aux.lookupS_mem {β : Type*} (l : List (String × β)) (k : String) (v : β) (h : l.lookup k = some v) :
    (k, v) ∈ l := by
  induction l with
  | nil => simp [List.lookup] at h
  | cons a l ih =>
    obtain ⟨k', v'⟩ := a
    by_cases hk : k = k'
    · subst hk
      simp [List.lookup] at h
      subst h
      exact List.mem_cons_self ..
    · have : (k == k') = false := by simpa using hk
      simp only [List.lookup, this] at h
      exact List.mem_cons_of_mem _ (ih h)

theorem Aux.lookup_of_nodup {β : Type*} (l : List (String × β)) (h : (l.map Prod.fst).Nodup) (k : String) (v : β)
    (hm : (k, v) ∈ l) : l.lookup k = some v := by
  induction l with
  | nil => cases hm
  | cons a l ih =>
    obtain ⟨k', v'⟩ := a
    rw [List.map_cons, List.nodup_cons] at h
    rcases List.mem_cons.1 hm with e | hm
    · cases e; simp [List.lookup]
    · have hne : k ≠ k' := by
        intro e
        exact h.1 (e ▸ List.mem_map.2 ⟨(k, v), hm, rfl⟩)
      have : (k == k') = false := by simpa using hne
      simp only [List.lookup, this]
      exact ih h.2 hm

/-- A complete list of arguments is determined by its lookups. -/
theorem Aux.args_eq (args : List (String × Val)) (names : List String) (hn : names.Nodup)
    (h : args.map Prod.fst = names) : names.map (fun p => (p, argOf args p)) = args := by
  subst h
  rw [List.map_map]
  conv_rhs => rw [← List.map_id args]
  refine List.map_congr_left fun kv hkv => ?_
  have := Aux.lookup_of_nodup args hn kv.1 kv.2 hkv
  simp [argOf, this]

theorem Aux.bind_names (kw : List (String × Val)) : ∀ (ps : List (String × Option Val)) (args : List (String × Val)),
    bindParams kw ps = .ok args → args.map Prod.fst = ps.map Prod.fst ∧
      ∀ kv ∈ args, kv ∈ kw ∨ (kv.1, some kv.2) ∈ ps
  | [], args, h => by cases h; simp
  | (p, d) :: ps, args, h => by
    unfold bindParams at h
    cases hr : bindParams kw ps with
    | error e => rw [hr] at h; cases h
    | ok r =>
      rw [hr] at h
      obtain ⟨h1, h2⟩ := Aux.bind_names kw ps r hr
      have h2' : ∀ kv ∈ r, kv ∈ kw ∨ (kv.1, some kv.2) ∈ (p, d) :: ps := fun kv hkv =>
        (h2 kv hkv).imp id (List.mem_cons_of_mem _)
      cases hl : kw.lookup p with
      | some v =>
        rw [hl] at h; dsimp only at h; cases h
        refine ⟨by simp [h1], ?_⟩
        intro kv hkv
        rcases List.mem_cons.1 hkv with rfl | hkv
        · exact .inl (Aux.lookupS_mem _ _ _ hl)
        · exact h2' kv hkv
      | none =>
        rw [hl] at h
        cases d with
        | none => dsimp only at h; cases h
        | some v =>
          dsimp only at h; cases h
          refine ⟨by simp [h1], ?_⟩
          intro kv hkv
          rcases List.mem_cons.1 hkv with rfl | hkv
          · exact .inr (List.mem_cons_self ..)
          · exact h2' kv hkv

/-- Giving every parameter explicitly. -/
theorem Aux.bind_full (kw : List (String × Val)) (f : String → Val) : ∀ (ps : List (String × Option Val)),
    (∀ p ∈ ps, kw.lookup p.1 = some (f p.1)) → bindParams kw ps = .ok ((ps.map Prod.fst).map fun p => (p, f p))
  | [], _ => rfl
  | (p, d) :: ps, h => by
    unfold bindParams
    rw [Aux.bind_full kw f ps fun q hq => h q (List.mem_cons_of_mem _ hq), h (p, d) (List.mem_cons_self ..)]
    rfl

/-- Calling the constructor with what `get_config` returns. -/
theorem Aux.construct_again (c : Class) (hc : Spec.Faithful c) (name : String) (args : List (String × Val))
    (hargs : args.map Prod.fst = c.params.map Prod.fst) (hck : c.check args = true) :
    construct c name (c.config.map fun e => (e.1, argOf args e.1)) = .ok (.obj name (.ofList (c.attrs args))) := by
  unfold construct
  rw [if_pos, Aux.bind_full _ (argOf args), Aux.args_eq args _ hc.params hargs]
  · dsimp only; rw [if_pos hck]
  · intro p hp
    have hp' : p.1 ∈ c.config.map Prod.fst := (hc.complete p.1).1 (List.mem_map.2 ⟨p, hp, rfl⟩)
    rw [Aux.lookup_map_val (fun k _ => argOf args k) c.config p.1]
    obtain ⟨v, hv⟩ := (Aux.lookupS_isSome c.config p.1).2 hp'
    rw [hv]; rfl
  · rw [List.all_eq_true]
    intro kv hkv
    obtain ⟨e, he, rfl⟩ := List.mem_map.1 hkv
    rw [List.contains_iff_mem]
    exact (hc.complete e.1).2 (List.mem_map.2 ⟨e, he, rfl⟩)

/-- The serialized form of an object. -/
def Aux.stored (cls : String) (items : List (String × Val)) (flag : Bool) : Val :=
  .dict (.ofList ([("class_name", .str cls), ("config", .dict (.ofList items))] ++
    if flag then [("__passive_serialization__", .bool true)] else []))

/-- Stored values that load as a given object; `b`: classes that deserialize in place are allowed. -/
inductive Aux.Good (K : String → Class) (sc : List String) (b : Bool) : Val → Val → Prop
  | mk (cls : String) (args : List (String × Val)) (item : String → Val) (nested : String → Bool) (flag : Bool)
      (hsc : cls ∈ sc) (hc : Spec.Faithful (K cls))
      (hb : b = false → ∀ k, (K cls).fromConfig ≠ .inPlace k)
      (hargs : args.map Prod.fst = (K cls).params.map Prod.fst) (hck : (K cls).check args = true)
      (hplain : ∀ e ∈ (K cls).config, nested e.1 = false → item e.1 = argOf args e.1 ∧ isPassive (item e.1) = false ∧
        (e.2.2 = true → item e.1 = .null))
      (hpass : ∀ e ∈ (K cls).config, nested e.1 = true → isPassive (item e.1) = !e.2.2 ∧ (e.1 = "name" → e.2.2 = true))
      (hnest : ∀ e ∈ (K cls).config, nested e.1 = true → Aux.Good K sc b (item e.1) (argOf args e.1)) :
      Aux.Good K sc b (Aux.stored cls ((K cls).config.map fun e => (e.1, item e.1)) flag)
        (.obj cls (.ofList ((K cls).attrs args)))

theorem Aux.isPassive_stored (cls : String) (items : List (String × Val)) (flag : Bool) :
    isPassive (Aux.stored cls items flag) = flag := by
  unfold Aux.stored
  change (Fields.keys _).contains _ = _
  rw [Aux.keys_ofList]
  cases flag <;> simp

/-- Deserializing a stored form. -/
theorem Aux.deserialize_stored (K : String → Class) (sc : List String) (cls : String) (items : List (String × Val))
    (flag : Bool) : deserialize K sc (Aux.stored cls items flag) =
      match loadObject K sc (.str cls) (items.map fun kv => (kv.1, kv.2, deserialize K sc kv.2)) with
      | .error e => .error e
      | .ok (o, after) => .ok (o, .dict (.ofList ([("class_name", .str cls), ("config", .dict after)] ++
          if flag then [("__passive_serialization__", .bool true)] else []))) := by
  unfold Aux.stored
  simp only [List.cons_append, List.nil_append, Fields.ofList]
  rw [deserialize]
  have e1 : ¬ ("class_name" = "config") := by decide
  have h1 : lookConfig K sc (.cons "class_name" (.str cls) (.cons "config" (.dict (.ofList items))
      (Fields.ofList (if flag then [("__passive_serialization__", .bool true)] else [])))) =
      some (items.map fun kv => (kv.1, kv.2, deserialize K sc kv.2)) := by
    rw [lookConfig, if_neg e1, lookConfig, if_pos rfl, inner, Aux.deserializeAll_ofList]
  have h2 : (Fields.cons "class_name" (.str cls) (.cons "config" (.dict (.ofList items))
      (Fields.ofList (if flag then [("__passive_serialization__", .bool true)] else [])))).get "class_name" =
      some (.str cls) := by rw [Fields.get, if_pos rfl]
  rw [h1, h2]
  dsimp only
  cases loadObject K sc (.str cls) (items.map fun kv => (kv.1, kv.2, deserialize K sc kv.2)) with
  | error e => rfl
  | ok r =>
    obtain ⟨o, after⟩ := r
    dsimp only
    rw [Fields.set, if_neg e1, Fields.set, if_pos rfl]

/-- Marked items are replaced by their objects. -/
theorem Aux.loadPassive_map {ι : Type*} (l : List ι) (key : ι → String) (v : ι → Val) (ld : ι → Loaded) (w : ι → Val)
    (P : ι → Prop) [DecidablePred P]
    (h1 : ∀ i ∈ l, P i → isPassive (v i) = true ∧ key i ≠ "name" ∧ ∃ m, ld i = .ok (w i, m))
    (h2 : ∀ i ∈ l, ¬ P i → isPassive (v i) = false) :
    loadPassive (l.map fun i => (key i, v i, ld i)) =
      .ok (l.map fun i => if P i then (key i, w i, .error .value) else (key i, v i, ld i)) := by
  induction l with
  | nil => rfl
  | cons i l ih =>
    rw [List.map_cons, loadPassive, ih (fun j hj => h1 j (List.mem_cons_of_mem _ hj))
      (fun j hj => h2 j (List.mem_cons_of_mem _ hj))]
    dsimp only
    by_cases hP : P i
    · obtain ⟨a, b, m, c⟩ := h1 i (List.mem_cons_self ..) hP
      rw [a, c]
      simp [b, hP]
    · rw [h2 i (List.mem_cons_self ..) hP]
      simp [hP]

theorem Aux.loadKeys_map {ι : Type*} (keys : List String) (l : List ι) (key : ι → String) (v : ι → Val)
    (ld : ι → Loaded) (w m : ι → Val)
    (h1 : ∀ i ∈ l, key i ∈ keys → ld i = .ok (w i, m i))
    (h2 : ∀ i ∈ l, key i ∉ keys → w i = v i ∧ m i = v i) :
    loadKeys keys (l.map fun i => (key i, v i, ld i)) =
      .ok (l.map fun i => (key i, w i), l.map fun i => (key i, m i)) := by
  induction l with
  | nil => rfl
  | cons i l ih =>
    rw [List.map_cons, loadKeys, ih (fun j hj => h1 j (List.mem_cons_of_mem _ hj))
      (fun j hj => h2 j (List.mem_cons_of_mem _ hj))]
    dsimp only
    by_cases hP : key i ∈ keys
    · rw [if_pos (by simpa using hP), h1 i (List.mem_cons_self ..) hP]; rfl
    · obtain ⟨a, b⟩ := h2 i (List.mem_cons_self ..) hP
      rw [if_neg (by simpa using hP)]
      simp [a, b]

theorem Aux.deserialize_null (K : String → Class) (sc : List String) : deserialize K sc .null = .ok (.null, .null) := by
  rw [deserialize]

theorem Aux.good_obj {K : String → Class} {sc : List String} {b : Bool} {j o : Val} (h : Aux.Good K sc b j o) :
    isPassive o = false := by
  cases h; rfl

theorem Aux.good_isObj {K : String → Class} {sc : List String} {b : Bool} {j o : Val} (h : Aux.Good K sc b j o) :
    ∃ c f, o = .obj c f := by
  cases h; exact ⟨_, _, rfl⟩

/-- Loading a stored value gives its object; without in-place classes the value can be loaded again. -/
theorem Aux.good_loads {K : String → Class} {sc : List String} {b : Bool} {j o : Val} (h : Aux.Good K sc b j o) :
    ∃ m, deserialize K sc j = .ok (o, m) ∧ (b = false → Aux.Good K sc b m o ∧ isPassive m = isPassive j) := by
  induction h with
  | mk cls args item nested flag hsc hc hb hargs hck hplain hpass hnest ih =>
    classical
    have ih' : ∀ k, ∃ m, k ∈ (K cls).config.map Prod.fst → nested k = true →
        deserialize K sc (item k) = .ok (argOf args k, m) ∧
        (b = false → Aux.Good K sc b m (argOf args k) ∧ isPassive m = isPassive (item k)) := by
      intro k
      by_cases hk : k ∈ (K cls).config.map Prod.fst ∧ nested k = true
      · obtain ⟨hk, hn⟩ := hk
        obtain ⟨e, he, rfl⟩ := List.mem_map.1 hk
        obtain ⟨m, hm⟩ := ih e he hn
        exact ⟨m, fun _ _ => hm⟩
      · exact ⟨.null, fun h1 h2 => absurd ⟨h1, h2⟩ hk⟩
    choose mm hmm using ih'
    set C := (K cls).config with hC
    have hld : ∀ e ∈ C, nested e.1 = true → deserialize K sc (item e.1) = .ok (argOf args e.1, mm e.1) := fun e he hn =>
      (hmm e.1 (List.mem_map.2 ⟨e, he, rfl⟩) hn).1
    -- after `loadPassive`
    have hlp : loadPassive ((C.map fun e => (e.1, item e.1)).map fun kv => (kv.1, kv.2, deserialize K sc kv.2)) =
        .ok (C.map fun e => if nested e.1 = true ∧ e.2.2 = false then (e.1, argOf args e.1, .error .value)
          else (e.1, item e.1, deserialize K sc (item e.1))) := by
      rw [List.map_map]
      refine Aux.loadPassive_map C (fun e => e.1) (fun e => item e.1) (fun e => deserialize K sc (item e.1))
        (fun e => argOf args e.1) (fun e => nested e.1 = true ∧ e.2.2 = false) ?_ ?_
      · rintro e he ⟨hn, hp⟩
        obtain ⟨h1, h2⟩ := hpass e he hn
        refine ⟨by rw [h1, hp]; rfl, fun h => ?_, _, hld e he hn⟩
        rw [h2 h] at hp; cases hp
      · intro e he hn
        cases hne : nested e.1 with
        | false => exact (hplain e he hne).2.1
        | true =>
          have hp : e.2.2 = true := by
            cases hp : e.2.2 with
            | true => rfl
            | false => exact absurd ⟨hne, hp⟩ hn
          rw [(hpass e he hne).1, hp]; rfl
    -- the arguments, and the configuration afterwards
    have hargsW : ∀ e ∈ C, (if nested e.1 = true ∧ e.2.2 = false then argOf args e.1 else
        if e.1 ∈ Spec.loads (K cls) then argOf args e.1 else item e.1) = argOf args e.1 := by
      intro e he
      split_ifs with h1 h2
      · rfl
      · rfl
      · cases hn : nested e.1 with
        | false => exact (hplain e he hn).1
        | true =>
          have hp : e.2.2 = true := by
            cases hp : e.2.2 with
            | true => rfl
            | false => exact absurd ⟨hn, hp⟩ h1
          exact absurd ((hc.inverse e he).1 hp) h2
    -- what is left behind, for classes that do not deserialize in place
    let item' : String → Val := fun k =>
      if nested k = true then
        if k ∈ Spec.loads (K cls) then mm k else argOf args k
      else item k
    let nested' : String → Bool := fun k => nested k && decide (k ∈ Spec.loads (K cls))
    have hkeysLd : ∀ e ∈ C, e.1 ∈ Spec.loads (K cls) →
        deserialize K sc (item e.1) = .ok (argOf args e.1, if nested e.1 = true then mm e.1 else item e.1) := by
      intro e he hl
      cases hn : nested e.1 with
      | true => simpa using hld e he hn
      | false =>
        obtain ⟨h1, h2, h3⟩ := hplain e he hn
        have := h3 ((hc.inverse e he).2 hl)
        rw [← h1, this, Aux.deserialize_null]; simp
    have hmain : ∃ after : List (String × Val), fromConfig (K cls) cls
        (C.map fun e => if nested e.1 = true ∧ e.2.2 = false then (e.1, argOf args e.1, .error .value)
          else (e.1, item e.1, deserialize K sc (item e.1))) =
        .ok (.obj cls (.ofList ((K cls).attrs args)), after) ∧
        ((∀ k, (K cls).fromConfig ≠ .inPlace k) → after = C.map fun e => (e.1, item' e.1)) := by
      have hshape : (C.map fun e => if nested e.1 = true ∧ e.2.2 = false then
            ((e.1, argOf args e.1, Except.error Err.value) : String × Val × Loaded)
          else (e.1, item e.1, deserialize K sc (item e.1))) =
          C.map fun e => (e.1, (if nested e.1 = true ∧ e.2.2 = false then argOf args e.1 else item e.1),
            (if nested e.1 = true ∧ e.2.2 = false then Except.error Err.value else deserialize K sc (item e.1))) := by
        refine List.map_congr_left fun e _ => ?_
        split_ifs <;> rfl
      rw [hshape]
      have hfst : (C.map fun e => (e.1, (if nested e.1 = true ∧ e.2.2 = false then argOf args e.1 else item e.1),
            (if nested e.1 = true ∧ e.2.2 = false then (Except.error Err.value : Loaded)
              else deserialize K sc (item e.1)))).map Prod.fst = C.map Prod.fst := by
        rw [List.map_map]; rfl
      have hcon := Aux.construct_again (K cls) hc cls args hargs hck
      rw [← hC] at hcon
      have hlk : ∀ keys, keys = Spec.loads (K cls) → loadKeys keys (C.map fun e => (e.1,
            (if nested e.1 = true ∧ e.2.2 = false then argOf args e.1 else item e.1),
            (if nested e.1 = true ∧ e.2.2 = false then (Except.error Err.value : Loaded)
              else deserialize K sc (item e.1)))) =
          .ok (C.map fun e => (e.1, argOf args e.1), C.map fun e => (e.1, item' e.1)) := by
        rintro keys rfl
        refine Aux.loadKeys_map _ C (fun e => e.1) _ _ (fun e => argOf args e.1) (fun e => item' e.1) ?_ ?_
        · intro e he hl
          have hp : e.2.2 = true := (hc.inverse e he).2 hl
          have : ¬ (nested e.1 = true ∧ e.2.2 = false) := by rw [hp]; simp
          rw [if_neg this, hkeysLd e he hl]
          simp only [item', hl, if_true]
        · intro e he hl
          have hw := hargsW e he
          rw [if_neg hl] at hw
          refine ⟨hw.symm, ?_⟩
          simp only [item']
          rw [if_neg hl]
          cases hn : nested e.1 with
          | true =>
            have hp : e.2.2 = false := by
              cases hp : e.2.2 with
              | false => rfl
              | true => exact absurd ((hc.inverse e he).1 hp) hl
            simp [hp]
          | false => simp
      cases hf : (K cls).fromConfig with
      | plain =>
        have hl : Spec.loads (K cls) = [] := by simp [Spec.loads, hf]
        have hx : (C.map fun e => (e.1, (if nested e.1 = true ∧ e.2.2 = false then argOf args e.1 else item e.1),
            (if nested e.1 = true ∧ e.2.2 = false then (Except.error Err.value : Loaded)
              else deserialize K sc (item e.1)))).map (fun i => (i.1, i.2.1)) = C.map fun e => (e.1, argOf args e.1) := by
          rw [List.map_map]
          refine List.map_congr_left fun e he => ?_
          have := hargsW e he
          simp only [hl, List.not_mem_nil, if_false] at this
          simp [this]
        unfold fromConfig
        rw [hf]; dsimp only
        rw [hx, hcon]
        refine ⟨_, rfl, fun _ => List.map_congr_left fun e he => ?_⟩
        cases hn : nested e.1 with
        | true => simp [item', hl, hn]
        | false => simp [item', hn, (hplain e he hn).1]
      | inPlace k =>
        have hl : Spec.loads (K cls) = [k] := by simp [Spec.loads, hf]
        unfold fromConfig
        rw [hf]; dsimp only
        rw [if_pos (by
          rw [hfst, List.contains_iff_mem]; exact hc.known k (by rw [hl]; simp)), hlk [k] hl.symm]
        dsimp only
        rw [hcon]
        exact ⟨_, rfl, fun h => absurd rfl (h k)⟩
      | copy ks =>
        have hl : Spec.loads (K cls) = ks := by simp [Spec.loads, hf]
        unfold fromConfig
        rw [hf]; dsimp only
        rw [if_pos (by
          rw [List.all_eq_true]
          intro k hk
          rw [hfst, List.contains_iff_mem]; exact hc.known k (by rw [hl]; exact hk)), hlk ks hl.symm]
        dsimp only
        rw [hcon]
        exact ⟨_, rfl, fun _ => rfl⟩
    obtain ⟨after, hfc, hafter⟩ := hmain
    have hload : loadObject K sc (.str cls)
        ((C.map fun e => (e.1, item e.1)).map fun kv => (kv.1, kv.2, deserialize K sc kv.2)) =
        .ok (.obj cls (.ofList ((K cls).attrs args)), .ofList after) := by
      unfold loadObject
      dsimp only
      rw [if_pos (List.contains_iff_mem.2 hsc), hlp]
      dsimp only
      rw [hfc]
    refine ⟨Aux.stored cls after flag, ?_, ?_⟩
    · rw [Aux.deserialize_stored, hload]
      rfl
    · intro hbf
      rw [Aux.isPassive_stored, Aux.isPassive_stored]
      refine ⟨?_, rfl⟩
      rw [hafter (hb hbf)]
      refine Aux.Good.mk cls args item' nested' flag hsc hc hb hargs hck ?_ ?_ ?_
      · intro e he hn'
        cases hn : nested e.1 with
        | false =>
          have : item' e.1 = item e.1 := by simp [item', hn]
          rw [this]; exact hplain e he hn
        | true =>
          have hl : e.1 ∉ Spec.loads (K cls) := by
            intro hl; simp [nested', hn, hl] at hn'
          have : item' e.1 = argOf args e.1 := by simp [item', hn, hl]
          rw [this]
          refine ⟨rfl, ?_, fun hp => absurd ((hc.inverse e he).1 hp) hl⟩
          exact Aux.good_obj (hnest e he hn)
      · intro e he hn'
        have hn : nested e.1 = true ∧ e.1 ∈ Spec.loads (K cls) := by simpa [nested'] using hn'
        have hi : item' e.1 = mm e.1 := by simp [item', hn]
        have hm := (hmm e.1 (List.mem_map.2 ⟨e, he, rfl⟩) hn.1).2 hbf
        rw [hi, hm.2]
        exact hpass e he hn.1
      · intro e he hn'
        have hn : nested e.1 = true ∧ e.1 ∈ Spec.loads (K cls) := by simpa [nested'] using hn'
        have hi : item' e.1 = mm e.1 := by simp [item', hn]
        rw [hi]
        exact ((hmm e.1 (List.mem_map.2 ⟨e, he, rfl⟩) hn.1).2 hbf).1


/-- Whether a value is neither an object nor a dictionary. -/
def Aux.isPlain : Val → Bool
  | .dict _ => false
  | .obj _ _ => false
  | _ => true

theorem Aux.isPlain_iff (v : Val) : Aux.isPlain v = true ↔ Spec.PlainValue v := by
  cases v <;> simp [Aux.isPlain, Spec.PlainValue]

theorem Aux.argOf_of_lookup {args : List (String × Val)} {k : String} {v : Val} (h : args.lookup k = some v) :
    argOf args k = v := by simp [argOf, h]

theorem Aux.passive_stored (cls : String) (items : List (String × Val)) :
    passive (Aux.stored cls items false) = Aux.stored cls items true := by
  unfold Aux.stored
  simp [passive, Aux.toList_ofList]

/-- The items of a serialized configuration. -/
theorem Aux.configItems_map (L : List (String × Val × Except Err Val)) (item : String → Val) :
    ∀ C : List (String × String × Bool), (∀ e ∈ C, ∃ v s, L.lookup e.2.1 = some (v, s) ∧
      (e.2.2 = true → s = .ok (item e.1)) ∧ (e.2.2 = false → storeItem v s = item e.1)) →
    configItems L C = some (C.map fun e => (e.1, item e.1))
  | [], _ => rfl
  | (key, attr, pre) :: C, h => by
    obtain ⟨v, s, h1, h2, h3⟩ := h _ (List.mem_cons_self ..)
    unfold configItems
    rw [Aux.configItems_map L item C fun e he => h e (List.mem_cons_of_mem _ he)]
    simp only at h1 h2 h3
    rw [h1]
    cases pre with
    | true => rw [h2 rfl]; rfl
    | false => simp [h3 rfl]

/-- Serializing an object made by constructors gives a stored value that loads as that object. -/
theorem Aux.made_good {K : String → Class} {sc : List String} {b : Bool} {S : String → Prop}
    (hS : ∀ c, S c → c ∈ sc ∧ Spec.Faithful (K c) ∧ (b = false → ∀ k, (K c).fromConfig ≠ .inPlace k))
    {o : Val} (h : Spec.Made K S o) :
    ∃ cls items, serialize K o = .ok (Aux.stored cls items false) ∧ isPassive o = false ∧ ¬ Spec.PlainValue o ∧
      ∀ flag, Aux.Good K sc b (Aux.stored cls items flag) o := by
  induction h with
  | mk cls kwargs o hcls ho hplain hname hobj ih =>
    classical
    obtain ⟨hsc, hc, hb⟩ := hS cls hcls
    -- the bound arguments
    unfold construct at ho
    split_ifs at ho with hall
    cases hbind : bindParams kwargs (K cls).params with
    | error e => rw [hbind] at ho; cases ho
    | ok args =>
      rw [hbind] at ho
      dsimp only at ho
      split_ifs at ho with hck
      cases ho
      obtain ⟨hargs, hfrom⟩ := Aux.bind_names _ _ _ hbind
      have harg : ∀ k v, args.lookup k = some v → (Spec.PlainValue v → k ∈ Spec.loads (K cls) → v = .null) ∧
          (¬ Spec.PlainValue v → k ≠ "name" ∧ (k, v) ∈ kwargs) := by
        intro k v hv
        rcases hfrom _ (Aux.lookupS_mem _ _ _ hv) with hm | hm
        · exact ⟨hplain _ hm, fun hp => ⟨hname _ hm hp, hm⟩⟩
        · obtain ⟨h1, h2⟩ := hc.defaults _ _ hm
          exact ⟨fun _ => h2, fun hp => absurd h1 hp⟩
      have hlook : ∀ e ∈ (K cls).config, args.lookup e.1 = some (argOf args e.1) := by
        intro e he
        have : e.1 ∈ args.map Prod.fst := by
          rw [hargs]; exact (hc.complete e.1).2 (List.mem_map.2 ⟨e, he, rfl⟩)
        obtain ⟨v, hv⟩ := (Aux.lookupS_isSome args e.1).2 this
        rw [hv, Aux.argOf_of_lookup hv]
      have ih' : ∀ k, ∃ c' it', ¬ Spec.PlainValue (argOf args k) → k ∈ (K cls).config.map Prod.fst →
          serialize K (argOf args k) = .ok (Aux.stored c' it' false) ∧
          ∀ flag, Aux.Good K sc b (Aux.stored c' it' flag) (argOf args k) := by
        intro k
        by_cases hk : ¬ Spec.PlainValue (argOf args k) ∧ k ∈ (K cls).config.map Prod.fst
        · obtain ⟨hp, hk⟩ := hk
          obtain ⟨e, he, rfl⟩ := List.mem_map.1 hk
          obtain ⟨c', it', h1, -, -, h2⟩ := ih _ ((harg _ _ (hlook e he)).2 hp).2 hp
          exact ⟨c', it', fun _ _ => ⟨h1, h2⟩⟩
        · exact ⟨"", [], fun h1 h2 => absurd ⟨h1, h2⟩ hk⟩
      choose cc ci hcc using ih'
      let pre : String → Bool := fun k => decide (k ∈ Spec.loads (K cls))
      let item : String → Val := fun k =>
        if Aux.isPlain (argOf args k) then argOf args k else Aux.stored (cc k) (ci k) (!pre k)
      have hpre : ∀ e ∈ (K cls).config, e.2.2 = pre e.1 := by
        intro e he
        simp only [pre]
        rw [Bool.eq_iff_iff, decide_eq_true_iff]
        exact hc.inverse e he
      have hser : configItems (serializeAll K (.ofList ((K cls).attrs args))) (K cls).config =
          some ((K cls).config.map fun e => (e.1, item e.1)) := by
        refine Aux.configItems_map _ item _ fun e he => ?_
        refine ⟨argOf args e.1, serialize K (argOf args e.1), ?_, ?_, ?_⟩
        · rw [Aux.serializeAll_ofList, Aux.lookup_map_val (fun _ v => (v, serialize K v)), hc.holds args hargs e he,
            hlook e he]
          rfl
        · intro hp
          by_cases hpl : Spec.PlainValue (argOf args e.1)
          · have hnull := (harg _ _ (hlook e he)).1 hpl ((hc.inverse e he).1 hp)
            simp only [item, hnull, Aux.isPlain, if_true]
            rw [serialize]
          · rw [(hcc e.1 hpl (List.mem_map.2 ⟨e, he, rfl⟩)).1]
            have : Aux.isPlain (argOf args e.1) = false := by
              rw [Bool.eq_false_iff, Ne, Aux.isPlain_iff]; exact hpl
            have hp' : pre e.1 = true := by rw [← hpre e he, hp]
            simp [item, this, hp']
        · intro hp
          by_cases hpl : Spec.PlainValue (argOf args e.1)
          · have hi : item e.1 = argOf args e.1 := by simp only [item, (Aux.isPlain_iff _).2 hpl, if_true]
            rw [hi]
            cases hv : argOf args e.1 <;> rw [hv] at hpl <;> simp [Spec.PlainValue] at hpl <;>
              simp [storeItem, serialize, passive]
          · rw [(hcc e.1 hpl (List.mem_map.2 ⟨e, he, rfl⟩)).1]
            have hq : Aux.isPlain (argOf args e.1) = false := by
              rw [Bool.eq_false_iff, Ne, Aux.isPlain_iff]; exact hpl
            have hp' : pre e.1 = false := by rw [← hpre e he, hp]
            have hg := (hcc e.1 hpl (List.mem_map.2 ⟨e, he, rfl⟩)).2 false
            have hst : ∀ v, Aux.Good K sc b (Aux.stored (cc e.1) (ci e.1) false) v →
                storeItem v (.ok (Aux.stored (cc e.1) (ci e.1) false)) = Aux.stored (cc e.1) (ci e.1) true := by
              intro v hv
              obtain ⟨c, f, rfl⟩ := Aux.good_isObj hv
              simp only [storeItem, Aux.passive_stored]
            rw [hst _ hg]
            simp [item, hq, hp']
      refine ⟨cls, (K cls).config.map fun e => (e.1, item e.1), ?_, rfl, by simp [Spec.PlainValue], ?_⟩
      · rw [serialize, hser]
        simp [Aux.stored]
      · intro flag
        refine Aux.Good.mk cls args item (fun k => !Aux.isPlain (argOf args k)) flag hsc hc hb hargs hck ?_ ?_ ?_
        · intro e he hn
          have hq : Aux.isPlain (argOf args e.1) = true := by simpa using hn
          have hpl := (Aux.isPlain_iff _).1 hq
          have hi : item e.1 = argOf args e.1 := by simp only [item, hq, if_true]
          rw [hi]
          refine ⟨rfl, ?_, fun hp => (harg _ _ (hlook e he)).1 hpl ((hc.inverse e he).1 hp)⟩
          cases hv : argOf args e.1 <;> rw [hv] at hpl <;> simp [Spec.PlainValue] at hpl <;> rfl
        · intro e he hn
          have hq : Aux.isPlain (argOf args e.1) = false := by simpa using hn
          have hpl : ¬ Spec.PlainValue (argOf args e.1) := by rw [← Aux.isPlain_iff, hq]; simp
          have hi : item e.1 = Aux.stored (cc e.1) (ci e.1) (!pre e.1) := by simp [item, hq]
          rw [hi, Aux.isPassive_stored, hpre e he]
          exact ⟨rfl, fun h => absurd h ((harg _ _ (hlook e he)).2 hpl).1⟩
        · intro e he hn
          have hq : Aux.isPlain (argOf args e.1) = false := by simpa using hn
          have hpl : ¬ Spec.PlainValue (argOf args e.1) := by rw [← Aux.isPlain_iff, hq]; simp
          have hi : item e.1 = Aux.stored (cc e.1) (ci e.1) (!pre e.1) := by simp [item, hq]
          rw [hi]
          exact (hcc e.1 hpl (List.mem_map.2 ⟨e, he, rfl⟩)).2 _

/-! ## C86 -/

/-- **C86 (any program).**  Every object made by constructors of classes that are faithful and in scope, nested to any
depth, can be serialized, and loading the result gives back the same object: same class, same attributes. -/
theorem C86_load_partial (K : String → Class) (scope : List String) (S : String → Prop)
    (hS : ∀ c, S c → c ∈ scope ∧ Spec.Faithful (K c)) (o : Val) (ho : Spec.Made K S o) :
    ∃ j m, serialize K o = .ok j ∧ deserialize K scope j = .ok (o, m) := by
  obtain ⟨cls, items, h1, -, -, h2⟩ := Aux.made_good (b := true) (sc := scope)
    (fun c hc => ⟨(hS c hc).1, (hS c hc).2, fun h => by cases h⟩) ho
  obtain ⟨m, hm, -⟩ := Aux.good_loads (h2 false)
  exact ⟨_, m, h1, hm⟩

/-- **C86 (loading repeatedly).**  If no class deserializes its configuration in place, the same stored value can be
loaded any number of times, each time giving the same object. -/
theorem C86_reload (K : String → Class) (scope : List String) (S : String → Prop)
    (hS : ∀ c, S c → c ∈ scope ∧ Spec.Faithful (K c) ∧ ∀ k, (K c).fromConfig ≠ .inPlace k) (o : Val)
    (ho : Spec.Made K S o) :
    ∃ j, serialize K o = .ok j ∧ ∀ n, ∃ m, Spec.reload K scope j n = .ok (o, m) := by
  obtain ⟨cls, items, h1, -, -, h2⟩ := Aux.made_good (b := false) (sc := scope)
    (fun c hc => ⟨(hS c hc).1, (hS c hc).2.1, fun _ => (hS c hc).2.2⟩) ho
  refine ⟨_, h1, fun n => ?_⟩
  suffices h : ∃ m, Spec.reload K scope (Aux.stored cls items false) n = .ok (o, m) ∧ Aux.Good K scope false m o by
    obtain ⟨m, hm, -⟩ := h; exact ⟨m, hm⟩
  induction n with
  | zero =>
    obtain ⟨m, hm, hg⟩ := Aux.good_loads (h2 false)
    exact ⟨m, hm, (hg rfl).1⟩
  | succ n ih =>
    obtain ⟨m, hm, hg⟩ := ih
    obtain ⟨m', hm', hg'⟩ := Aux.good_loads hg
    refine ⟨m', ?_, (hg' rfl).1⟩
    rw [Spec.reload, hm]
    exact hm'

end Verif.Props
