import Verif.Pipeline
import Verif.Props.Wrapper
import Verif.Props.ClusterWrapper
import Verif.Props.Preserve

/-!
# C97: the tools can be chained

Sparsity obtained by pruning survives clustering with `preserve_sparsity` and quantization-aware
training with the preserving schemes; the number of clusters survives cluster-preserving quantization.
-/

set_option linter.unusedSectionVars false

namespace Verif.Props
open Verif.Clustering Verif.Quant Verif.Sparsity Verif.Pipeline Verif.Encoding

variable {α : Type*} [Field α] [LinearOrder α] [IsStrictOrderedRing α] [FloorRing α]

/-! ## Specification -/

/-- A kernel as long as the mask, zero wherever the mask is. -/
def Spec.Sparse (mask k : List α) : Prop :=
  k.length = mask.length ∧ ∀ i : ℕ, mask[i]? = some 0 → k[i]? = some 0

/-- A variable of the model at the end of training. -/
def Spec.TrainedVar (m : PModel α) (hist : List (PEvent α)) (v : PVar α) : Prop :=
  ∃ l ∈ (pruned m hist).layers, v ∈ l.vars

/-! ## Helper lemmas -/

theorem Aux.sparse_trans {mask k k' : List α} (h : Spec.Sparse mask k) (h' : Spec.ZerosKept k k') :
    Spec.Sparse mask k' := by
  refine ⟨h'.1.trans h.1, fun i hi => ?_⟩
  have hk := h.2 i hi
  obtain ⟨hlt, hz⟩ := List.getElem?_eq_some_iff.1 hk
  have hlt' : i < k'.length := by rw [h'.1]; exact hlt
  exact List.getElem?_eq_some_iff.2 ⟨hlt', h'.2 i hlt hlt' hz⟩

theorem Aux.forall2_right {A B : Type*} {R : A → B → Prop} {l : List A} {l' : List B}
    (h : List.Forall₂ R l l') {y : B} (hy : y ∈ l') : ∃ x, R x y := by
  induction h with
  | nil => cases hy
  | cons h1 _ ih =>
    rcases List.mem_cons.1 hy with rfl | hy
    · exact ⟨_, h1⟩
    · exact ih hy

/-- At the end of training a kernel has zeros at the pruned positions. -/
theorem Aux.trained_sparse {m : PModel α} (hm : Spec.GoodModel m)
    (hb : ∀ l ∈ m.layers, Spec.PosBlock l.cfg) {hist : List (PEvent α)}
    (hc : PEvent.trainBegin ∈ hist) {v : PVar α} (hv : Spec.TrainedVar m hist v) :
    Spec.Sparse v.mask v.weight ∧ v.weight.length = v.shape.prod := by
  have hg := Aux.pRun_good (hist ++ [.epochEnd])
    (fun l hl => ⟨hb l hl, hm l hl⟩ : ∀ l ∈ m.layers, Spec.GoodLayer l)
  have h := C10_after_epoch_end m hm hb hist (C10_collected m hist hc)
  obtain ⟨l, hl, hvl⟩ := hv
  have hgv : Spec.GoodVar v := by
    have : (pRun m (hist ++ [.epochEnd])).layers = (pruned m hist).layers := by
      simp [pRun, pruned]
    rw [this] at hg
    exact (hg l hl).2 v hvl
  unfold pruned at hl
  generalize (pRun m hist).layers = ls at h
  generalize (pStep (pRun m hist) .epochEnd).1.layers = ls' at h hl
  obtain ⟨l0, h0⟩ := Aux.forall2_right h hl
  obtain ⟨b, h1, h2, h3⟩ := Aux.forall2_right h0 hvl
  refine ⟨⟨h1.trans h2.symm, fun i hi => ?_⟩, hgv.1⟩
  obtain ⟨hlt, hz⟩ := List.getElem?_eq_some_iff.1 hi
  have hw : i < v.weight.length := by omega
  rcases h3 i (by omega) hw hlt with h4 | h4
  · exact List.getElem?_eq_some_iff.2 ⟨hw, h4.2⟩
  · rw [hz] at h4; exact absurd h4.1 zero_ne_one

/-- Clustering with `preserve_sparsity` keeps zeros. -/
theorem Aux.stripped_zeros (init : IntervalInit α) (hcount : Spec.Counts init)
    (hsign : Spec.KeepsSign init) (n : ℕ) (hn : 1 ≤ n) (ws : List α) (es : List (CEvent ℕ α)) :
    Spec.ZerosKept ws (strippedKernel init n ws es) := by
  refine ⟨by simp [strippedKernel], fun i h0 h1 hz => ?_⟩
  simp only [strippedKernel, List.getElem_map, List.getElem_range]
  apply C22_with_init init hcount hsign n hn
  rw [List.getD_eq_getElem?_getD, List.getElem?_eq_getElem h0, hz]; rfl

/-! ## C97 -/

/-- **C97 (prune, cluster, quantize: zeros).**  Prune a model with any history of training (in which
the callback saw a training start), strip; cluster one of its kernels with `preserve_sparsity`, train
in any way, strip; quantize with the cluster-preserving scheme and train in any way.  Every position
that the pruning mask had pruned when pruning ended is zero in the stripped clustered kernel, in every
quantized kernel the layer ever computes with, and in the final kernel. -/
theorem C97_zeros (m : PModel α) (hm : Spec.GoodModel m) (hb : ∀ l ∈ m.layers, Spec.PosBlock l.cfg)
    (hist : List (PEvent α)) (hc : PEvent.trainBegin ∈ hist) (v : PVar α)
    (hv : Spec.TrainedVar m hist v) (hne : v.weight ≠ [])
    (init : IntervalInit α) (hcount : Spec.Counts init) (hsign : Spec.KeepsSign init)
    (n : ℕ) (hn : 1 ≤ n) (es : List (CEvent ℕ α))
    (hlow : ∀ w ∈ strippedKernel init n v.weight es, -1000000 < w)
    (cfg : QCfg) (hbits : 2 ≤ cfg.numBits) (isConv : Bool) (evs : List (CPEvent α))
    (hev : ∀ e ∈ evs, Spec.EventLow e ∧ Spec.EventFlag e ∧
      Spec.EventZeros (strippedKernel init n v.weight es) e)
    (outs : List (QTensor α)) (s : CPState α)
    (h : pcqat cfg isConv v.shape (strippedKernel init n v.weight es) evs = some (outs, s)) :
    Spec.Sparse v.mask (strippedKernel init n v.weight es) ∧ Spec.Sparse v.mask s.kernel ∧
      ∀ o ∈ outs, Spec.Sparse v.mask o.data := by
  obtain ⟨h1, h2⟩ := Aux.trained_sparse hm hb hc hv
  have h3 := Aux.sparse_trans h1 (Aux.stripped_zeros init hcount hsign n hn v.weight es)
  have hlen : (strippedKernel init n v.weight es).length = v.weight.length := by
    simp [strippedKernel]
  have hp : Spec.ProperTensor (⟨v.shape, strippedKernel init n v.weight es⟩ : QTensor α) := by
    refine ⟨hlen.trans h2, fun he => hne ?_⟩
    rw [← List.length_eq_zero_iff, ← hlen]
    exact List.length_eq_zero_iff.2 he
  obtain ⟨h4, h5⟩ := C53_zeros_kept cfg hbits isConv
    ⟨v.shape, strippedKernel init n v.weight es⟩ hp hlow evs hev outs s h
  exact ⟨h3, Aux.sparse_trans h3 h4, fun o ho => Aux.sparse_trans h3 (h5 o ho)⟩

/-- **C97 (prune, cluster, quantize: clusters).**  In the same chain, when the kernel is quantized as
a whole: the stripped kernel has at most `n` values, and so has every later kernel; a quantized kernel
has at most `n` values in every channel, and at most `n` altogether if there is one range for the whole
kernel. -/
theorem C97_clusters (ws : List α) (hne : ws ≠ [])
    (init : IntervalInit α) (hcount : Spec.Counts init) (hsign : Spec.KeepsSign init)
    (n : ℕ) (hn : 1 ≤ n) (h1024 : n ≤ 1024) (es : List (CEvent ℕ α))
    (hes : ∀ p, -1000000 < (CState.run true (fun _ => 0) (fun p => ws.getD p 0)
      (fun _ => zeroCentroids init n ws) (es ++ [.call])).orig p)
    (hlow : ∀ w ∈ strippedKernel init n ws es, -1000000 < w)
    (cfg : QCfg) (hbits : 2 ≤ cfg.numBits) (isConv : Bool) (shape : List ℕ)
    (hshape : ws.length = shape.prod)
    (hwhole : ¬ Spec.PerChannel isConv (⟨shape, strippedKernel init n ws es⟩ : QTensor α))
    (h2 : 2 ≤ Spec.distinct (strippedKernel init n ws es)) (evs : List (CPEvent α))
    (hev : ∀ e ∈ evs, Spec.EventLow e) (outs : List (QTensor α)) (s : CPState α)
    (h : pcqat cfg isConv shape (strippedKernel init n ws es) evs = some (outs, s)) :
    Spec.distinct (strippedKernel init n ws es) ≤ n ∧ Spec.distinct s.kernel ≤ n ∧
    ∀ o ∈ outs, o.shape = shape ∧ o.data.length = ws.length ∧
      (∀ c < o.dim, Spec.distinct (column o.dim o.data c) ≤ n) ∧
      (cfg.perAxis = false → Spec.distinct o.data ≤ n) := by
  have hlen : (strippedKernel init n ws es).length = ws.length := by simp [strippedKernel]
  have hz := C24_zero_centroid init hcount hsign n hn ws
  have hcne : zeroCentroids init n ws ≠ [] := by
    intro he
    rw [he] at hz
    simp at hz
  have hd : Spec.distinct (strippedKernel init n ws es) ≤ n := by
    obtain ⟨S, hS, hmem⟩ := C21_whole_kernel_partial true (fun p => ws.getD p 0)
      (zeroCentroids init n ws) n hcne (by exact_mod_cast hz.2.1) es hes
    refine le_trans (Finset.card_le_card fun x hx => ?_) hS
    rw [List.mem_toFinset] at hx
    simp only [strippedKernel, List.mem_map] at hx
    obtain ⟨i, -, rfl⟩ := hx
    exact hmem i trivial
  have hp : Spec.ProperTensor (⟨shape, strippedKernel init n ws es⟩ : QTensor α) := by
    refine ⟨hlen.trans hshape, fun he => hne ?_⟩
    rw [← List.length_eq_zero_iff, ← hlen]
    exact List.length_eq_zero_iff.2 he
  obtain ⟨h4, h5⟩ := C53_whole_kernel cfg hbits isConv true
    ⟨shape, strippedKernel init n ws es⟩ hp hlow hwhole h2 (hd.trans h1024) evs hev outs s h
  refine ⟨hd, h4.trans hd, fun o ho => ?_⟩
  obtain ⟨g1, g2, g3, g4⟩ := h5 o ho
  have hdim : o.dim = (⟨shape, strippedKernel init n ws es⟩ : QTensor α).dim := by
    simp only [QTensor.dim]; rw [g1]
  refine ⟨g1, g2.trans hlen, fun c hc' => ?_, fun hpa => (g4 hpa).trans hd⟩
  rw [hdim] at hc' ⊢
  exact (g3 c hc').trans hd

/-- **C97 (prune, quantize).**  Prune a model, strip, and quantize one of its kernels with the
prune-preserving scheme: every quantized kernel the layer computes with is zero wherever the pruning
mask had pruned when pruning ended, whatever the optimizer does in between. -/
theorem C97_prune_quantize (m : PModel α) (hm : Spec.GoodModel m)
    (hb : ∀ l ∈ m.layers, Spec.PosBlock l.cfg)
    (hist : List (PEvent α)) (hc : PEvent.trainBegin ∈ hist) (v : PVar α)
    (hv : Spec.TrainedVar m hist v) (hne : v.weight ≠ [])
    (cfg : QCfg) (hbits : 2 ≤ cfg.numBits) (calls : List (Bool × QTensor α))
    (hcalls : ∀ e ∈ calls, e.2.shape = v.shape ∧ Spec.ProperTensor e.2)
    (outs : List (QTensor α)) (r : RangeVars α)
    (h : pqat cfg v.shape v.weight calls = some (outs, r)) :
    outs.length = calls.length ∧ ∀ o ∈ outs, Spec.Sparse v.mask o.data := by
  obtain ⟨h1, h2⟩ := Aux.trained_sparse hm hb hc hv
  obtain ⟨h3, h4⟩ := C52_zeros_kept cfg hbits ⟨v.shape, v.weight⟩ ⟨h2, hne⟩ calls hcalls outs r h
  refine ⟨h3, fun o ho => ?_⟩
  obtain ⟨i, hi, rfl⟩ := List.mem_iff_getElem.1 ho
  exact Aux.sparse_trans h1 (h4 i hi (by omega)).2.1

/-- **C97 (the sparsity as a number).**  A kernel that is zero wherever the mask is has at least as
many zeros as the mask. -/
theorem C97_count (mask k : List α) (h : Spec.Sparse mask k) : mask.count 0 ≤ k.count 0 := by
  obtain ⟨hl, hz⟩ := h
  induction mask generalizing k with
  | nil => simp
  | cons x xs ih =>
    cases k with
    | nil => simp at hl
    | cons y ys =>
      have h1 := ih ys (by simpa using hl) (fun i hi => by simpa using hz (i + 1) (by simpa using hi))
      by_cases hx : x = 0
      · have hy : y = 0 := by simpa using hz 0 (by simp [hx])
        simp [hx, hy, h1]
      · simp only [List.count_cons]
        have : (x == 0) = false := by simp [hx]
        rw [this]
        simp only [Bool.false_eq_true, if_false]
        omega

namespace Example

/-- One pruned 2x2 kernel. -/
def chain : PModel ℚ :=
  ⟨[freshLayer ⟨fun _ => (true, 1/2), 1, 1, .AVG, none⟩ [([2, 2], [1, -3, 2, 1/2])]], false⟩

/-- A training run: the optimizer makes all weights nonzero after the last call. -/
def chainHist : List (PEvent ℚ) :=
  [.trainBegin, .call true, .optimizer fun _ _ i => if i = 1 then -3 else 2 * (i : ℚ) + 1]

/-- The kernel at the end of pruning, as a variable. -/
def chainVar : PVar ℚ := ⟨[2, 2], [0, -3, 5, 0], [0, 1, 1, 0], 2⟩

theorem chain_vars : (pruned chain chainHist).layers.map
      (fun l => l.vars.map fun v => (v.shape, v.weight, v.mask, v.threshold)) =
    [[(chainVar.shape, chainVar.weight, chainVar.mask, chainVar.threshold)]] := by decide +kernel

theorem chain_var : Spec.TrainedVar chain chainHist chainVar := by
  have h := chain_vars
  have h1 : [(chainVar.shape, chainVar.weight, chainVar.mask, chainVar.threshold)] ∈
      (pruned chain chainHist).layers.map
        (fun l => l.vars.map fun v => (v.shape, v.weight, v.mask, v.threshold)) := by rw [h]; simp
  obtain ⟨l, hl, he⟩ := List.mem_map.1 h1
  have h2 : (chainVar.shape, chainVar.weight, chainVar.mask, chainVar.threshold) ∈
      l.vars.map fun v => (v.shape, v.weight, v.mask, v.threshold) := by rw [he]; simp
  obtain ⟨v, hv, e⟩ := List.mem_map.1 h2
  refine ⟨l, hl, ?_⟩
  have : v = chainVar := by
    cases v
    simp only [Prod.mk.injEq] at e
    obtain ⟨e1, e2, e3, e4⟩ := e
    simp only [e1, e2, e3, e4]
  rw [← this]; exact hv

/-- Clustering it, with a training step that moves the weights and the centroids. -/
def chainEvents : List (CEvent ℕ ℚ) := [.call, .assign (fun p => 4 * (p : ℚ) - 6) (fun _ i => 2 * (i : ℚ) - 3)]

example : strippedKernel linearInit 3 chainVar.weight chainEvents = [0, -3, 1, 0] := by decide +kernel

/-- Quantization-aware training after that. -/
def chainQat : List (CPEvent ℚ) :=
  [.call true true, .optimizer (fun i => (i : ℚ)) (fun _ j => (j : ℚ) + 1) (fun _ => 0), .call true true]

example : (pcqat cfgDense8 false chainVar.shape (strippedKernel linearInit 3 chainVar.weight chainEvents)
    chainQat).map (fun r => r.1.map (·.data)) = some [[0, -3, 126 / 127, 0], [0, 0, 2, 0]] := by decide +kernel

example : PEvent.trainBegin ∈ chainHist ∧ chainVar.weight ≠ [] ∧
    (∀ w ∈ strippedKernel linearInit 3 chainVar.weight chainEvents, -1000000 < w) ∧
    2 ≤ Spec.distinct (strippedKernel linearInit 3 chainVar.weight chainEvents) := by
  refine ⟨by simp [chainHist], by simp [chainVar], ?_, ?_⟩
  · decide +kernel
  · decide +kernel

example : ∀ e ∈ chainQat, Spec.EventLow e ∧ Spec.EventFlag e ∧
    Spec.EventZeros (strippedKernel linearInit 3 chainVar.weight chainEvents) e := by
  intro e he
  simp only [chainQat, List.mem_cons, List.not_mem_nil, or_false] at he
  rcases he with rfl | rfl | rfl
  · exact ⟨trivial, rfl, trivial⟩
  · refine ⟨fun i => ?_, trivial, fun i _ _ => rfl⟩
    have : (0 : ℚ) ≤ i := Nat.cast_nonneg i
    linarith
  · exact ⟨trivial, rfl, trivial⟩

example : (pqat cfgDense8 chainVar.shape chainVar.weight
    [(true, ⟨[2, 2], [1, -3, 5, 7]⟩), (false, ⟨[2, 2], [4, 4, 4, 4]⟩)]).map
      (fun r => r.1.map fun o => o.data.map fun x => decide (x = 0)) =
    some [[true, false, false, true], [true, false, false, true]] := by decide +kernel

end Example

end Verif.Props
