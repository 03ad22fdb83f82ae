import Verif.Sparsity.Summaries
import Verif.Props.Wrapper

/-!
# C101: what `PruningSummaries` writes
-/

set_option linter.unusedSectionVars false

namespace Verif.Props
open Verif.Sparsity

variable {α : Type*} [Field α] [LinearOrder α] [IsStrictOrderedRing α] [FloorRing α]

/-- The fraction of entries of a weight that are pruned. -/
def Spec.prunedFraction (v : PVar α) : α := (v.mask.countP (· = 0) : α) / (v.mask.length : α)

/-- Record for the sparsity of `v`, a weight of the wrapper `n`, at step `it`. -/
def Spec.sparsityRecord (it : ℕ) (n : String) (v : PVar α) : String × NpVal α × NpVal α :=
  (n ++ "/mask:0/sparsity", .num (Spec.prunedFraction v), .num (it : α))

/-- Record for the threshold. -/
def Spec.thresholdRecord (it : ℕ) (n : String) (v : PVar α) : String × NpVal α × NpVal α :=
  (n ++ "/threshold:0/threshold", .num v.threshold, .num (it : α))

theorem Aux.dictSet_keys {β : Type*} (d : List (String × β)) (k : String) (v : β) (x : String × β) :
    x ∈ dictSet d k v → x = (k, v) ∨ x ∈ d := by
  induction d with
  | nil => simp [dictSet]
  | cons y d ih =>
    obtain ⟨k', v'⟩ := y
    unfold dictSet
    split_ifs
    · simp only [List.mem_cons]; tauto
    · simp only [List.mem_cons]
      rintro (h | h)
      · exact .inr (.inl h)
      · rcases ih h with h | h
        · exact .inl h
        · exact .inr (.inr h)

theorem Aux.dictSet_fst {β : Type*} (d : List (String × β)) (k : String) (v : β) (x : String) :
    x ∈ (dictSet d k v).map Prod.fst ↔ x = k ∨ x ∈ d.map Prod.fst := by
  induction d with
  | nil => simp [dictSet]
  | cons y d ih =>
    obtain ⟨k', v'⟩ := y
    unfold dictSet
    split_ifs with h
    · subst h; simp
    · simp only [List.map_cons, List.mem_cons, ih]; tauto

theorem Aux.dictSet_nodup {β : Type*} (d : List (String × β)) (k : String) (v : β)
    (h : (d.map Prod.fst).Nodup) : ((dictSet d k v).map Prod.fst).Nodup := by
  induction d with
  | nil => simp [dictSet]
  | cons y d ih =>
    obtain ⟨k', v'⟩ := y
    rw [List.map_cons, List.nodup_cons] at h
    unfold dictSet
    split_ifs with e
    · subst e; rw [List.map_cons, List.nodup_cons]; exact h
    · rw [List.map_cons, List.nodup_cons, Aux.dictSet_fst]
      refine ⟨?_, ih h.2⟩
      rintro (h' | h')
      · exact e h'
      · exact h.1 h'

theorem Aux.dictSet_new {β : Type*} (d : List (String × β)) (k : String) (v : β)
    (h : k ∉ d.map Prod.fst) : dictSet d k v = d ++ [(k, v)] := by
  induction d with
  | nil => rfl
  | cons y d ih =>
    obtain ⟨k', v'⟩ := y
    simp only [List.map_cons, List.mem_cons, not_or] at h
    unfold dictSet
    rw [if_neg (Ne.symm h.1), ih h.2]
    rfl

/-- Filling a dictionary from a list of keys and values. -/
def Aux.fill {β γ : Type*} (key : γ → String) (val : γ → β) (d : List (String × β)) (l : List γ) :
    List (String × β) :=
  l.foldl (fun d p => dictSet d (key p) (val p)) d

theorem Aux.fill_mem {β γ : Type*} (key : γ → String) (val : γ → β) (l : List γ)
    (d : List (String × β)) (x : String × β) (h : x ∈ Aux.fill key val d l) :
    x ∈ d ∨ ∃ p ∈ l, x = (key p, val p) := by
  induction l generalizing d with
  | nil => exact .inl h
  | cons p l ih =>
    rcases ih (dictSet d (key p) (val p)) h with h | ⟨q, hq, h⟩
    · rcases Aux.dictSet_keys _ _ _ _ h with h | h
      · exact .inr ⟨p, List.mem_cons_self, h⟩
      · exact .inl h
    · exact .inr ⟨q, List.mem_cons_of_mem _ hq, h⟩

theorem Aux.fill_fst {β γ : Type*} (key : γ → String) (val : γ → β) (l : List γ)
    (d : List (String × β)) (x : String) :
    x ∈ (Aux.fill key val d l).map Prod.fst ↔ x ∈ d.map Prod.fst ∨ x ∈ l.map key := by
  induction l generalizing d with
  | nil => simp [Aux.fill]
  | cons p l ih =>
    have : Aux.fill key val d (p :: l) = Aux.fill key val (dictSet d (key p) (val p)) l := rfl
    rw [this, ih, Aux.dictSet_fst, List.map_cons, List.mem_cons]
    tauto

theorem Aux.fill_nodup {β γ : Type*} (key : γ → String) (val : γ → β) (l : List γ)
    (d : List (String × β)) (h : (d.map Prod.fst).Nodup) :
    ((Aux.fill key val d l).map Prod.fst).Nodup := by
  induction l generalizing d with
  | nil => exact h
  | cons p l ih => exact ih _ (Aux.dictSet_nodup _ _ _ h)

theorem Aux.fill_new {β γ : Type*} (key : γ → String) (val : γ → β) (l : List γ)
    (d : List (String × β)) (h : (l.map key).Nodup) (hd : ∀ p ∈ l, key p ∉ d.map Prod.fst) :
    Aux.fill key val d l = d ++ l.map fun p => (key p, val p) := by
  induction l generalizing d with
  | nil => simp [Aux.fill]
  | cons p l ih =>
    rw [List.map_cons, List.nodup_cons] at h
    have : Aux.fill key val d (p :: l) = Aux.fill key val (dictSet d (key p) (val p)) l := rfl
    rw [this, Aux.dictSet_new _ _ _ (hd p List.mem_cons_self), ih _ h.2]
    · simp
    · intro q hq hm
      simp only [List.map_append, List.map_cons, List.map_nil, List.mem_append, List.mem_cons,
        List.not_mem_nil, or_false] at hm
      rcases hm with hm | hm
      · exact hd q (List.mem_cons_of_mem _ hq) hm
      · exact h.1 (hm ▸ List.mem_map_of_mem hq)

theorem Aux.everyOther_pairs {β γ : Type*} (a b : γ → β) (l : List γ) :
    everyOther (l.flatMap fun x => [a x, b x]) = l.map a ∧
    everyOther (l.flatMap fun x => [a x, b x]).tail = l.map b := by
  have h1 : ∀ l : List γ, everyOther (l.flatMap fun x => [a x, b x]) = l.map a := by
    intro l
    induction l with
    | nil => rfl
    | cons x l ih => simp only [List.flatMap_cons, List.cons_append, List.nil_append, everyOther,
        List.map_cons, ih]
  have h2 : ∀ (l : List γ) (y : β), everyOther (y :: l.flatMap fun x => [a x, b x]) =
      y :: l.map b := by
    intro l
    induction l with
    | nil => intro y; rfl
    | cons x l ih =>
      intro y
      simp only [List.flatMap_cons, List.cons_append, List.nil_append, everyOther, List.map_cons]
      simpa using ih (b x)
  refine ⟨h1 l, ?_⟩
  cases l with
  | nil => rfl
  | cons x l =>
    simp only [List.flatMap_cons, List.cons_append, List.nil_append, List.tail_cons, List.map_cons]
    exact h2 l (b x)

/-- All pruned weights with the names of their wrappers. -/
def Aux.named (ls : List (NamedLayer α)) : List (String × PVar α) :=
  ls.flatMap fun l => l.layer.vars.map fun v => (l.name, v)

theorem Aux.mem_named (ls : List (NamedLayer α)) (p : String × PVar α) :
    p ∈ Aux.named ls ↔ ∃ l ∈ ls, l.name = p.1 ∧ p.2 ∈ l.layer.vars := by
  obtain ⟨n, v⟩ := p
  simp only [Aux.named, List.mem_flatMap, List.mem_map, Prod.mk.injEq]
  constructor
  · rintro ⟨l, hl, w, hw, rfl, rfl⟩; exact ⟨l, hl, rfl, hw⟩
  · rintro ⟨l, hl, rfl, hw⟩; exact ⟨l, hl, v, hw, rfl, rfl⟩

theorem Aux.summaries_eq (it : ℕ) (ls : List (NamedLayer α)) :
    pruningSummaries it ls =
      (Aux.fill (fun p : String × PVar α => p.1 ++ "/threshold:0" ++ "/threshold")
          (fun p => NpVal.num p.2.threshold)
        (Aux.fill (fun p : String × PVar α => p.1 ++ "/mask:0" ++ "/sparsity")
          (fun p => oneMinus (npMean (.array p.2.mask))) [] (Aux.named ls))
        (Aux.named ls)).map fun r => (r.1, r.2, NpVal.num (it : α)) := by
  have hp : ls.flatMap layerParams = (Aux.named ls).flatMap fun p =>
      [(p.1 ++ "/mask:0", NpVal.array p.2.mask), (p.1 ++ "/threshold:0", NpVal.num p.2.threshold)] := by
    unfold Aux.named
    rw [List.flatMap_assoc]
    congr 1
    funext l
    unfold layerParams
    rw [List.flatMap_map]
  unfold pruningSummaries
  simp only [List.getLast?_append, List.getLast?_singleton, Option.some_or, Option.map_some,
    Option.getD_some, List.dropLast_concat]
  rw [hp, (Aux.everyOther_pairs _ _ _).1, (Aux.everyOther_pairs _ _ _).2]
  simp only [List.foldl_map]
  rfl

theorem Aux.sum_binary (l : List α) (h : ∀ x ∈ l, x = 0 ∨ x = 1) :
    l.sum = (l.length : α) - (l.countP (· = 0) : α) := by
  induction l with
  | nil => simp
  | cons x l ih =>
    rw [List.sum_cons, ih fun y hy => h y (List.mem_cons_of_mem _ hy), List.countP_cons]
    rcases h x List.mem_cons_self with rfl | rfl
    · simp
    · simp; ring

/-- One minus the mean of a 0/1 mask is the pruned fraction. -/
theorem Aux.sparsity_value (v : PVar α) (hv : Spec.GoodVar v) (hne : v.shape.prod ≠ 0) :
    oneMinus (npMean (.array v.mask)) = .num (Spec.prunedFraction v) := by
  obtain ⟨-, hl, hb⟩ := hv
  have hs := Aux.sum_binary v.mask hb
  have hn : (v.mask.length : α) ≠ 0 := by
    rw [hl]; exact_mod_cast hne
  unfold Spec.prunedFraction
  cases hm : v.mask with
  | nil => rw [hm] at hl; exact absurd hl.symm hne
  | cons x l =>
    rw [hm] at hs hn
    simp only [npMean, oneMinus]
    rw [hs]
    congr 1
    field_simp
    ring

theorem Aux.key_ne (a b : String) : a ++ "/mask:0" ++ "/sparsity" ≠ b ++ "/threshold:0" ++ "/threshold" := by
  intro h
  have := congrArg (fun s => s.toList.getLast?) h
  simp [String.toList_append, List.getLast?_append] at this

/-- **C101 (nothing invented, no wrapper missed).**  Whatever the names, at the start of every epoch: every
record carries the number of optimizer iterations as its step and holds the pruned fraction or the threshold
of some weight of a wrapper with that name; every wrapper with pruned weights has a record of both kinds;
and no name is written twice. -/
theorem C101_sound (m : PModel α) (hm : Spec.GoodModel m) (hb : ∀ l ∈ m.layers, Spec.PosBlock l.cfg)
    (hist : List (PEvent α)) (ls : List (NamedLayer α))
    (hls : ls.map NamedLayer.layer = (pRun m hist).layers)
    (hne : ∀ l ∈ ls, ∀ v ∈ l.layer.vars, v.shape.prod ≠ 0) (it : ℕ) :
    (∀ r ∈ pruningSummaries it ls, ∃ l ∈ ls, ∃ v ∈ l.layer.vars,
      r = Spec.sparsityRecord it l.name v ∨ r = Spec.thresholdRecord it l.name v) ∧
    (∀ l ∈ ls, l.layer.vars ≠ [] →
      (∃ v ∈ l.layer.vars, (Spec.sparsityRecord it l.name v).1 ∈ (pruningSummaries it ls).map Prod.fst) ∧
      ∃ v ∈ l.layer.vars, (Spec.thresholdRecord it l.name v).1 ∈ (pruningSummaries it ls).map Prod.fst) ∧
    ((pruningSummaries it ls).map Prod.fst).Nodup := by
  have hg := Aux.pRun_good hist (fun l hl => ⟨hb l hl, hm l hl⟩ : ∀ l ∈ m.layers, Spec.GoodLayer l)
  have hgood : ∀ l ∈ ls, ∀ v ∈ l.layer.vars, Spec.GoodVar v := by
    intro l hl
    exact (hg l.layer (hls ▸ List.mem_map_of_mem hl)).2
  rw [Aux.summaries_eq]
  refine ⟨?_, ?_, ?_⟩
  · intro r hr
    obtain ⟨x, hx, rfl⟩ := List.mem_map.1 hr
    rcases Aux.fill_mem _ _ _ _ _ hx with hx | ⟨p, hp, rfl⟩
    · rcases Aux.fill_mem _ _ _ _ _ hx with hx | ⟨p, hp, rfl⟩
      · cases hx
      · obtain ⟨l, hl, hn, hv⟩ := (Aux.mem_named _ _).1 hp
        refine ⟨l, hl, p.2, hv, .inl ?_⟩
        dsimp only
        rw [Aux.sparsity_value _ (hgood l hl _ hv) (hne l hl _ hv), hn, String.append_assoc]
        rfl
    · obtain ⟨l, hl, hn, hv⟩ := (Aux.mem_named _ _).1 hp
      refine ⟨l, hl, p.2, hv, .inr ?_⟩
      dsimp only
      rw [hn, String.append_assoc]
      rfl
  · intro l hl hv
    obtain ⟨v, vs, e⟩ := List.exists_cons_of_ne_nil hv
    have hv : v ∈ l.layer.vars := by rw [e]; exact List.mem_cons_self
    have hp : (l.name, v) ∈ Aux.named ls := (Aux.mem_named _ _).2 ⟨l, hl, rfl, hv⟩
    simp only [List.map_map]
    change (∃ v ∈ l.layer.vars, _ ∈ List.map Prod.fst _) ∧ ∃ v ∈ l.layer.vars, _ ∈ List.map Prod.fst _
    refine ⟨⟨v, hv, ?_⟩, ⟨v, hv, ?_⟩⟩
    · rw [Aux.fill_fst, Aux.fill_fst]
      refine .inl (.inr (List.mem_map.2 ⟨_, hp, ?_⟩))
      exact String.append_assoc
    · rw [Aux.fill_fst]
      refine .inr (List.mem_map.2 ⟨_, hp, ?_⟩)
      exact String.append_assoc
  · rw [List.map_map]
    change (List.map Prod.fst _).Nodup
    exact Aux.fill_nodup _ _ _ _ (Aux.fill_nodup _ _ _ _ List.nodup_nil)

/-- **C101, partial.**  If the wrappers have different names and each has at most one prunable weight, then
at the start of every epoch, after any training history, exactly one record per weight is written with its
pruned fraction, and one with its threshold.  Missing: wrappers with several prunable weights
(`C101_lstm_violated`). -/
theorem C101_logged_partial (m : PModel α) (hm : Spec.GoodModel m)
    (hb : ∀ l ∈ m.layers, Spec.PosBlock l.cfg) (hist : List (PEvent α)) (ls : List (NamedLayer α))
    (hls : ls.map NamedLayer.layer = (pRun m hist).layers)
    (hne : ∀ l ∈ ls, ∀ v ∈ l.layer.vars, v.shape.prod ≠ 0)
    (hnames : (ls.map NamedLayer.name).Nodup) (hone : ∀ l ∈ ls, l.layer.vars.length ≤ 1) (it : ℕ) :
    pruningSummaries it ls =
      (ls.flatMap fun l => l.layer.vars.map (Spec.sparsityRecord it l.name)) ++
      ls.flatMap fun l => l.layer.vars.map (Spec.thresholdRecord it l.name) := by
  have hg := Aux.pRun_good hist (fun l hl => ⟨hb l hl, hm l hl⟩ : ∀ l ∈ m.layers, Spec.GoodLayer l)
  have hgood : ∀ l ∈ ls, ∀ v ∈ l.layer.vars, Spec.GoodVar v := by
    intro l hl
    exact (hg l.layer (hls ▸ List.mem_map_of_mem hl)).2
  have hnd : ((Aux.named ls).map Prod.fst).Nodup := by
    clear hls hne hgood
    induction ls with
    | nil => exact List.nodup_nil
    | cons l ls ih =>
      rw [List.map_cons, List.nodup_cons] at hnames
      have ih := ih hnames.2 fun x hx => hone x (List.mem_cons_of_mem _ hx)
      have h1 := hone l List.mem_cons_self
      have e : Aux.named (l :: ls) = (l.layer.vars.map fun v => (l.name, v)) ++ Aux.named ls := rfl
      rw [e, List.map_append, List.nodup_append]
      refine ⟨?_, ih, ?_⟩
      · match hv : l.layer.vars, h1 with
        | [], _ => exact List.nodup_nil
        | [v], _ => simp
        | _ :: _ :: _, h => simp at h
      · intro a ha b hb' hab
        subst hab
        simp only [List.map_map, List.mem_map, Function.comp] at ha hb'
        obtain ⟨v, -, rfl⟩ := ha
        obtain ⟨p, hp, hpe⟩ := hb'
        obtain ⟨l', hl', hn', -⟩ := (Aux.mem_named _ _).1 hp
        exact hnames.1 (List.mem_map.2 ⟨l', hl', hn'.trans hpe⟩)
  have hinj : ∀ s : String, Function.Injective fun n : String => n ++ s := by
    intro s a b h
    have := congrArg String.toList h
    simp only [String.toList_append] at this
    exact String.toList_inj.1 (List.append_cancel_right this)
  have hkeys : ∀ s s' : String, ((Aux.named ls).map fun p => p.1 ++ s ++ s').Nodup := by
    intro s s'
    have : ((Aux.named ls).map fun p => p.1 ++ s ++ s') =
        ((Aux.named ls).map Prod.fst).map fun n => n ++ s ++ s' := by rw [List.map_map]; rfl
    rw [this]
    exact hnd.map fun a b h => hinj s (hinj s' h)
  have h1 := Aux.fill_new (fun p : String × PVar α => p.1 ++ "/mask:0" ++ "/sparsity")
    (fun p => oneMinus (npMean (.array p.2.mask))) (Aux.named ls) [] (hkeys _ _) (by simp)
  rw [Aux.summaries_eq, h1, Aux.fill_new _ _ _ _ (hkeys _ _)]
  · rw [List.nil_append, List.map_append, List.map_map, List.map_map]
    unfold Aux.named
    rw [List.map_flatMap, List.map_flatMap]
    congr 1
    · rw [List.flatMap_def, List.flatMap_def]
      congr 1
      refine List.map_congr_left fun l hl => ?_
      rw [List.map_map]
      refine List.map_congr_left fun v hv => ?_
      simp only [Function.comp]
      rw [Aux.sparsity_value _ (hgood l hl v hv) (hne l hl v hv), String.append_assoc]
      rfl
    · rw [List.flatMap_def, List.flatMap_def]
      congr 1
      refine List.map_congr_left fun l hl => ?_
      rw [List.map_map]
      refine List.map_congr_left fun v hv => ?_
      simp only [Function.comp]
      rw [String.append_assoc]
      rfl
  · intro p _ hp
    simp only [List.nil_append, List.map_map, List.mem_map, Function.comp] at hp
    obtain ⟨q, -, h⟩ := hp
    exact Aux.key_ne _ _ h

namespace Example
/-- A pruned LSTM layer: half of the kernel is pruned, nothing of the recurrent kernel. -/
def lstmLayer : NamedLayer ℚ :=
  ⟨"prune_low_magnitude_lstm",
    ⟨⟨fun _ => (true, 1/2), 1, 1, .AVG, none⟩,
      [⟨[2], [0, 3], [0, 1], 1⟩, ⟨[2], [5, 4], [1, 1], 0⟩], 7⟩⟩

def denseSummary : NamedLayer ℚ :=
  ⟨"prune_low_magnitude_dense",
    ⟨⟨fun _ => (true, 1/2), 1, 1, .AVG, none⟩, [⟨[4], [0, 3, 0, 0], [0, 1, 0, 0], 2⟩], 7⟩⟩

def showRecords : List (String × NpVal ℚ × NpVal ℚ) → List (String × Option ℚ)
  | [] => []
  | (n, .num x, _) :: l => (n, some x) :: showRecords l
  | (n, _, _) :: l => (n, none) :: showRecords l

example : showRecords (pruningSummaries 7 [denseSummary]) =
    [("prune_low_magnitude_dense/mask:0/sparsity", some (3/4)),
     ("prune_low_magnitude_dense/threshold:0/threshold", some 2)] := by
  decide +kernel
end Example

/-- **C101, violated.**  A wrapper with two prunable weights, such as the one of an LSTM layer: the
sparsity of the first (one half) is never written. -/
theorem C101_lstm_violated :
    ∃ l : NamedLayer ℚ, ∃ v ∈ l.layer.vars, Spec.GoodVar v ∧ Spec.prunedFraction v = 1/2 ∧
      ∀ it, Spec.sparsityRecord it l.name v ∉ pruningSummaries it [l] := by
  refine ⟨Example.lstmLayer, ⟨[2], [0, 3], [0, 1], 1⟩, List.mem_cons_self, ⟨rfl, rfl, ?_⟩, ?_, ?_⟩
  · intro x hx
    simp only [List.mem_cons, List.not_mem_nil, or_false] at hx
    exact hx
  · decide +kernel
  · intro it h
    have e : pruningSummaries it [Example.lstmLayer] =
        [("prune_low_magnitude_lstm" ++ "/mask:0" ++ "/sparsity", .num (1 - (1 + (1 + 0)) / 2), .num it),
         ("prune_low_magnitude_lstm" ++ "/threshold:0" ++ "/threshold", .num 0, .num it)] := by
      rw [Aux.summaries_eq]
      simp [Aux.named, Example.lstmLayer, Aux.fill, dictSet, npMean, oneMinus]
      norm_num
    rw [e] at h
    simp [Spec.sparsityRecord, Spec.prunedFraction] at h

end Verif.Props
