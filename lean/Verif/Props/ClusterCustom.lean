import Verif.Clustering.Custom
import Verif.Props.ClusterAlgorithm
import Mathlib.Data.List.Forall2
import Mathlib.Data.List.GetD
import Mathlib.Tactic.Ring

/-!
# C119: layers that bring their own clustering algorithm

A `ClusterableLayer` may say, for each of its weights, which algorithm associates the weights with the
centroids.  The layer then computes with the centroids that this algorithm chooses, whatever it does.
-/

set_option linter.unusedSectionVars false
namespace Verif.Props
open Verif.Clustering

variable {α : Type*} [Field α] [LinearOrder α] [IsStrictOrderedRing α]

/-- The layer says that `f` is the algorithm for the weight `n`. -/
def Spec.Brings (l : CustomLayer α) (n : String) (f : Pull α) : Prop :=
  l.clusterableLayer = true ∧ ∃ m, l.method = some m ∧ m n = some f

/-- What an algorithm has to return: one index for each weight, and there must be such a centroid. -/
def Spec.PullFits (idx : List ℕ) (cents ws : List α) : Prop :=
  idx.length = ws.length ∧ ∀ i ∈ idx, i < cents.length

/-- `k` consists of the centroids that the indices name. -/
def Spec.Pulled (idx : List ℕ) (cents k : List α) : Prop :=
  k.length = idx.length ∧ ∀ (p i : ℕ), idx[p]? = some i → ∃ c, cents[i]? = some c ∧ k[p]? = some c

/-! ## The lookup -/

/-- **C119** (lookup).  Without per-channel clustering, and for layers other than `Conv2D`, the algorithm
used for a weight is the one the layer brings, if it brings one, and the standard one otherwise. -/
theorem C119_lookup (l : CustomLayer α) (n : String) (pc : Bool) (h : pc = false ∨ l.conv2D = false) :
    (∀ f, clusteringImpl l n pc = .own f ↔ Spec.Brings l n f) ∧
    (clusteringImpl l n pc = .standard ↔ ∀ f, ¬ Spec.Brings l n f) := by
  have hpc : (pc && l.conv2D) = false := by rcases h with h | h <;> simp [h]
  unfold clusteringImpl Spec.Brings
  rw [hpc]
  cases l.clusterableLayer with
  | false => simp
  | true =>
    cases l.method with
    | none => simp
    | some m => cases h : m n <;> simp [h]

/-- **C119** (violated: `Conv2D`).  With per-channel clustering the algorithm that a layer derived from
`Conv2D` brings is ignored. -/
theorem C119_per_channel_violated (l : CustomLayer α) (n : String) (f : Pull α) (_h : Spec.Brings l n f)
    (hc : l.conv2D = true) : clusteringImpl l n true = .perChannel := by
  simp [clusteringImpl, hc]

/-! ## Helper lemmas -/

/-- What never changes about a weight of a built wrapper. -/
structure Aux.CustomInv (ps : Bool) (l : CustomLayer α) (c0 : String → List α) (e : String × List α)
    (w : PWeight α) : Prop where
  name : w.name = e.1
  pull : w.pull = (clusteringImpl l e.1 false).pull
  orig : w.orig.length = e.2.length
  cents : w.cents.length = (c0 e.1).length
  pulling : w.pulling.length = (w.pull (c0 e.1) e.2).length
  mask : ps = true → Spec.PullFits (w.pull (c0 e.1) e.2) (c0 e.1) e.2 ∧
    w.mask = (clusteredWeight (c0 e.1) (w.pull (c0 e.1) e.2) e.2).map fun x => if x ≠ 0 then 1 else 0
  zeroIdx : ps = true → w.zeroIdx = argmin ((c0 e.1).map fun x => |x|)

theorem Aux.gather_some {cs : List α} {idx : List ℕ} {ws k : List α} :
    gatherWeight cs idx ws = some k ↔ Spec.PullFits idx cs ws ∧ k = clusteredWeight cs idx ws := by
  unfold gatherWeight Spec.PullFits
  split
  next h =>
    simp only [Bool.and_eq_true, List.all_eq_true, decide_eq_true_eq] at h
    simp only [Option.some.injEq]
    exact ⟨fun e => ⟨⟨h.2, h.1⟩, e.symm⟩, fun e => e.2.symm⟩
  next h =>
    simp only [Bool.and_eq_true, List.all_eq_true, decide_eq_true_eq] at h
    simp only [reduceCtorEq, false_iff]
    exact fun e => h ⟨e.1.2, e.1.1⟩

theorem Aux.customBuild_inv {ps : Bool} {l : CustomLayer α} {c0 : String → List α} :
    ∀ {ws : List (String × List α)} {s : List (PWeight α)}, customBuild ps l c0 ws = some s →
      List.Forall₂ (fun e w => Aux.CustomInv ps l c0 e w ∧ w.orig = e.2 ∧ w.cents = c0 e.1) ws s
  | [], s, h => by
    simp only [customBuild, Option.some.injEq] at h
    subst h; exact .nil
  | (n, w) :: ws, s, h => by
    unfold customBuild at h
    cases hb : PWeight.build ps l (c0 n) n w with
    | none => rw [hb] at h; cases h
    | some x =>
      rw [hb] at h
      dsimp only at h
      cases hr : customBuild ps l c0 ws with
      | none => rw [hr] at h; cases h
      | some s' =>
        rw [hr] at h
        simp only [Option.map_some, Option.some.injEq] at h
        subst h
        refine .cons ?_ (customBuild_inv hr)
        unfold PWeight.build at hb
        cases ps with
        | false =>
          simp only [Bool.false_eq_true, if_false, Option.some.injEq] at hb
          subst hb
          exact ⟨⟨rfl, rfl, rfl, rfl, rfl, by simp, by simp⟩, rfl, rfl⟩
        | true =>
          simp only [if_true] at hb
          cases hg : gatherWeight (c0 n) ((clusteringImpl l n false).pull (c0 n) w) w with
          | none => rw [hg] at hb; cases hb
          | some k =>
            rw [hg] at hb
            simp only [Option.some.injEq] at hb
            obtain ⟨h1, h2⟩ := Aux.gather_some.1 hg
            subst hb
            exact ⟨⟨rfl, rfl, rfl, rfl, rfl, fun _ => ⟨h1, by rw [h2]⟩, fun _ => rfl⟩, rfl, rfl⟩

theorem Aux.custom_resetZero_length (cs : List α) (z : ℕ) : (resetZero cs z).length = cs.length := by
  simp [resetZero]

/-- What a forward pass does to a weight. -/
theorem Aux.customUpdate_spec {ps : Bool} {w w' : PWeight α} (h : w.update ps = some w') :
    let cents := if ps then resetZero w.cents w.zeroIdx else w.cents
    let ws := if ps then List.zipWith (· * ·) w.orig w.mask else w.orig
    (w.pull cents ws).length = w.pulling.length ∧ Spec.PullFits (w.pull cents ws) cents ws ∧
      w' = { w with cents := cents, pulling := w.pull cents ws,
                    kernel := clusteredWeight cents (w.pull cents ws) ws } := by
  intro cents ws
  change (if (w.pull cents ws).length = w.pulling.length then
    (match gatherWeight cents (w.pull cents ws) ws with
      | none => none
      | some k => some { w with cents := cents, pulling := w.pull cents ws, kernel := k })
    else none) = some w' at h
  by_cases hl : (w.pull cents ws).length = w.pulling.length
  · rw [if_pos hl] at h
    cases hg : gatherWeight cents (w.pull cents ws) ws with
    | none => rw [hg] at h; cases h
    | some k =>
      rw [hg] at h
      simp only [Option.some.injEq] at h
      obtain ⟨h1, h2⟩ := Aux.gather_some.1 hg
      refine ⟨hl, h1, ?_⟩
      rw [← h, h2]
  · rw [if_neg hl] at h; cases h

theorem Aux.customCall_forall {ps : Bool} : ∀ {s s' : List (PWeight α)}, customCall ps s = some s' ↔
      List.Forall₂ (fun w w' => w.update ps = some w') s s'
  | [], s' => by
    simp only [customCall, Option.some.injEq, List.forall₂_nil_left_iff]
    exact eq_comm
  | w :: s, s' => by
    unfold customCall
    cases hu : w.update ps with
    | none =>
      simp only [reduceCtorEq, false_iff]
      intro h
      cases h with
      | cons a b => rw [hu] at a; cases a
    | some x =>
      dsimp only
      constructor
      · intro h
        cases hr : customCall ps s with
        | none => rw [hr] at h; cases h
        | some t =>
          rw [hr] at h
          simp only [Option.map_some, Option.some.injEq] at h
          subst h
          exact .cons hu (customCall_forall.1 hr)
      · intro h
        cases h with
        | cons a b =>
          rw [hu] at a
          simp only [Option.some.injEq] at a
          subst a
          rw [customCall_forall.2 b]; rfl

theorem Aux.customUpdate_inv {ps : Bool} {l : CustomLayer α} {c0 : String → List α} {e : String × List α}
    {w w' : PWeight α} (hi : Aux.CustomInv ps l c0 e w) (h : w.update ps = some w') :
    Aux.CustomInv ps l c0 e w' := by
  obtain ⟨h1, h2, rfl⟩ := Aux.customUpdate_spec h
  refine ⟨hi.name, hi.pull, hi.orig, ?_, ?_, hi.mask, hi.zeroIdx⟩
  · dsimp only
    split
    · rw [Aux.custom_resetZero_length, hi.cents]
    · exact hi.cents
  · dsimp only
    rw [h1, hi.pulling]

theorem Aux.forall₂_comp {A B C : Type*} {P : A → B → Prop} {Q : B → C → Prop} {R : A → C → Prop}
    (h : ∀ a b c, P a b → Q b c → R a c) :
    ∀ {x : List A} {y : List B} {z : List C}, List.Forall₂ P x y → List.Forall₂ Q y z →
      List.Forall₂ R x z
  | _, _, _, .nil, .nil => .nil
  | _, _, _, .cons a b, .cons c d => .cons (h _ _ _ a c) (forall₂_comp h b d)

theorem Aux.customStep_inv {ps : Bool} {l : CustomLayer α} {c0 : String → List α}
    {ws : List (String × List α)} {s s' : List (PWeight α)} {e : PEvent α}
    (hi : List.Forall₂ (Aux.CustomInv ps l c0) ws s) (h : customStep ps s e = some s') :
    List.Forall₂ (Aux.CustomInv ps l c0) ws s' := by
  cases e with
  | call => exact Aux.forall₂_comp (fun _ _ _ => Aux.customUpdate_inv) hi (Aux.customCall_forall.1 h)
  | assign os cs =>
    simp only [customStep, Option.some.injEq] at h
    subst h
    rw [List.forall₂_map_right_iff]
    refine hi.imp fun a b hb => ?_
    exact ⟨hb.name, hb.pull, by simp [hb.orig], by simp [hb.cents], hb.pulling, hb.mask, hb.zeroIdx⟩

theorem Aux.customRun_inv {ps : Bool} {l : CustomLayer α} {c0 : String → List α}
    {ws : List (String × List α)} : ∀ {es : List (PEvent α)} {s s' : List (PWeight α)},
      List.Forall₂ (Aux.CustomInv ps l c0) ws s → customRun ps es s = some s' →
      List.Forall₂ (Aux.CustomInv ps l c0) ws s'
  | [], s, s', hi, h => by
    simp only [customRun, Option.some.injEq] at h
    subst h; exact hi
  | e :: es, s, s', hi, h => by
    unfold customRun at h
    cases hs : customStep ps s e with
    | none => rw [hs] at h; cases h
    | some t => rw [hs] at h; exact customRun_inv (Aux.customStep_inv hi hs) h

theorem Aux.custom_sgn {w : α} (h : -1000000 < w) : sgn (w + 1000000) = 1 := by
  have : 0 < w + 1000000 := by linarith
  simp [sgn, this]

theorem Aux.clustered_pulled {cs : List α} {idx : List ℕ} {ws : List α} (hf : Spec.PullFits idx cs ws)
    (hw : ∀ v ∈ ws, -1000000 < v) : Spec.Pulled idx cs (clusteredWeight cs idx ws) := by
  refine ⟨by simp [clusteredWeight, hf.1], fun p i hp => ?_⟩
  obtain ⟨hp1, rfl⟩ := List.getElem?_eq_some_iff.1 hp
  have hpw : p < ws.length := by rw [← hf.1]; exact hp1
  have hic : idx[p] < cs.length := hf.2 _ (List.getElem_mem hp1)
  refine ⟨cs[idx[p]], List.getElem?_eq_getElem hic, ?_⟩
  rw [List.getElem?_eq_getElem (by simp [clusteredWeight]; omega)]
  simp only [clusteredWeight, List.getElem_zipWith, clusteredEntry, addGradient,
    Aux.custom_sgn (hw _ (List.getElem_mem hpw)), mul_one, Option.some.injEq]
  rw [List.getD_eq_getElem _ _ hic]

theorem Aux.forall₂_at {A B : Type*} {P : A → B → Prop} : ∀ {x : List A} {y : List B},
    List.Forall₂ P x y → ∀ {k : ℕ} {a : A}, x[k]? = some a → ∃ b, y[k]? = some b ∧ P a b
  | _, _, .nil, k, a, h => by simp at h
  | _, _, .cons p _, 0, a, h => by
    simp only [List.getElem?_cons_zero, Option.some.injEq] at h
    subst h; exact ⟨_, rfl, p⟩
  | _, _, .cons _ t, k + 1, a, h => by
    simp only [List.getElem?_cons_succ] at h ⊢
    exact forall₂_at t h

theorem Aux.brings_pull {l : CustomLayer α} {n : String} :
    (∀ f, Spec.Brings l n f → (clusteringImpl l n false).pull = f) ∧
    ((∀ f, ¬ Spec.Brings l n f) → (clusteringImpl l n false).pull = pullingIndices) := by
  obtain ⟨h1, h2⟩ := C119_lookup l n false (Or.inl rfl)
  exact ⟨fun f hf => by rw [(h1 f).2 hf]; rfl, fun h => by rw [h2.2 h]; rfl⟩

/-! ## What the layer computes with -/

/-- **C119.**  After any history of forward passes, optimizer steps and loading, the next forward pass
asks, for each weight, the algorithm that the layer brings for it, with the current centroids and the
current weights, and the standard algorithm, which takes a nearest centroid, if it brings none.  The
layer computes with the centroids chosen in this way, and these are the weights of the stripped layer.
The variables themselves are not changed. -/
theorem C119_own (l : CustomLayer α) (c0 : String → List α) (weights : List (String × List α))
    {s0 s s' : List (PWeight α)} (es : List (PEvent α)) (hb : customBuild false l c0 weights = some s0)
    (hr : customRun false es s0 = some s) (hc : customCall false s = some s') (k : ℕ) (n : String)
    (w0 : List α) (hk : weights[k]? = some (n, w0)) :
    ∃ W W', s[k]? = some W ∧ s'[k]? = some W' ∧ W.name = n ∧ W'.orig = W.orig ∧ W'.cents = W.cents ∧
      Spec.PullFits W'.pulling W.cents W.orig ∧
      (∀ f, Spec.Brings l n f → W'.pulling = f W.cents W.orig) ∧
      ((∀ f, ¬ Spec.Brings l n f) → W.cents ≠ [] → ∀ (p : ℕ) (v : α), W.orig[p]? = some v →
        ∃ i, W'.pulling[p]? = some i ∧ Spec.Nearest W.cents v i) ∧
      ((∀ v ∈ W.orig, -1000000 < v) → Spec.Pulled W'.pulling W.cents W'.kernel) ∧
      ∃ ws, customStrip false s = some ws ∧ ws[k]? = some (n, W'.kernel) := by
  have hi := Aux.customRun_inv ((Aux.customBuild_inv hb).imp fun _ _ h => h.1) hr
  obtain ⟨W, hW, iW⟩ := Aux.forall₂_at hi hk
  obtain ⟨W', hW', hu⟩ := Aux.forall₂_at (Aux.customCall_forall.1 hc) hW
  obtain ⟨-, h2, h3⟩ := Aux.customUpdate_spec hu
  simp only [Bool.false_eq_true, if_false] at h2 h3
  have hname : W'.name = n := by rw [h3]; exact iW.name
  refine ⟨W, W', hW, hW', iW.name, by rw [h3], by rw [h3], by rw [h3]; exact h2, ?_, ?_, ?_, ?_⟩
  · intro f hf
    rw [h3]
    dsimp only
    rw [iW.pull, Aux.brings_pull.1 f hf]
  · intro hf hne p v hp
    rw [h3]
    dsimp only
    rw [iW.pull, Aux.brings_pull.2 hf, pullingIndices, List.getElem?_map, hp]
    exact ⟨_, rfl, Aux.pullingIndex_nearest _ hne v⟩
  · intro hv
    rw [h3]
    exact Aux.clustered_pulled h2 hv
  · refine ⟨_, by rw [customStrip, hc]; rfl, ?_⟩
    rw [List.getElem?_map, hW', Option.map_some, hname]

/-- **C119** (the variables).  Optimizer steps and loading set the variables of every weight, which keep
their shapes. -/
theorem C119_variables (ps : Bool) (l : CustomLayer α) (c0 : String → List α)
    (weights : List (String × List α)) {s0 s s' : List (PWeight α)} (es : List (PEvent α))
    (hb : customBuild ps l c0 weights = some s0) (hr : customRun ps es s0 = some s)
    (os cs : String → ℕ → α) (ha : customStep ps s (.assign os cs) = some s') (k : ℕ) (n : String)
    (w0 : List α) (hk : weights[k]? = some (n, w0)) :
    ∃ W, s'[k]? = some W ∧ W.orig = (List.range w0.length).map (os n) ∧
      W.cents = (List.range (c0 n).length).map (cs n) := by
  have hi := Aux.customRun_inv ((Aux.customBuild_inv hb).imp fun _ _ h => h.1) hr
  obtain ⟨W, hW, iW⟩ := Aux.forall₂_at hi hk
  simp only [customStep, Option.some.injEq] at ha
  subst ha
  refine ⟨_, by rw [List.getElem?_map, hW]; rfl, ?_, ?_⟩
  · dsimp only; rw [iW.name, iW.orig]
  · dsimp only; rw [iW.name, iW.cents]

theorem Aux.masked_big {ps : Bool} {l : CustomLayer α} {c0 : String → List α} {e : String × List α}
    {w : PWeight α} (hi : Aux.CustomInv ps l c0 e w) (hw : ∀ v ∈ w.orig, -1000000 < v) :
    ∀ v ∈ (if ps then List.zipWith (· * ·) w.orig w.mask else w.orig), -1000000 < v := by
  cases ps with
  | false => simpa using hw
  | true =>
    intro v hv
    simp only [if_true] at hv
    obtain ⟨p, hp, rfl⟩ := List.mem_iff_getElem.1 hv
    rw [List.getElem_zipWith]
    have hp' : p < w.orig.length ∧ p < w.mask.length := by simpa using hp
    have hall : ∀ m ∈ w.mask, m = 1 ∨ m = 0 := by
      rw [(hi.mask rfl).2]
      intro m hm
      obtain ⟨x, -, rfl⟩ := List.mem_map.1 hm
      by_cases hx : x = 0 <;> simp [hx]
    have hm := hall _ (List.getElem_mem hp'.2)
    rcases hm with hm | hm
    · rw [hm, mul_one]; exact hw _ (List.getElem_mem _)
    · rw [hm, mul_zero]
      linarith

/-- **C119** (number of values).  Whatever the algorithms do, and whether or not sparsity is preserved:
after a forward pass a weight takes at most as many values as it has centroids. -/
theorem C119_count (ps : Bool) (l : CustomLayer α) (c0 : String → List α)
    (weights : List (String × List α)) {s0 s s' : List (PWeight α)} (es : List (PEvent α))
    (hb : customBuild ps l c0 weights = some s0) (hr : customRun ps es s0 = some s)
    (hc : customCall ps s = some s') (k : ℕ) (n : String) (w0 : List α)
    (hk : weights[k]? = some (n, w0)) :
    ∃ W W', s[k]? = some W ∧ s'[k]? = some W' ∧ W'.kernel.length = w0.length ∧
      ((∀ v ∈ W.orig, -1000000 < v) →
        ∃ S : Finset α, S.card ≤ (c0 n).length ∧ ∀ x ∈ W'.kernel, x ∈ S) := by
  have hi := Aux.customRun_inv ((Aux.customBuild_inv hb).imp fun _ _ h => h.1) hr
  obtain ⟨W, hW, iW⟩ := Aux.forall₂_at hi hk
  obtain ⟨W', hW', hu⟩ := Aux.forall₂_at (Aux.customCall_forall.1 hc) hW
  have iW' := Aux.customUpdate_inv iW hu
  obtain ⟨-, h2, h3⟩ := Aux.customUpdate_spec hu
  refine ⟨W, W', hW, hW', ?_, fun hv => ⟨W'.cents.toFinset, ?_, ?_⟩⟩
  · rw [h3]
    have hlen : (if ps then List.zipWith (· * ·) W.orig W.mask else W.orig).length = w0.length := by
      cases ps with
      | false => simpa using iW.orig
      | true =>
        obtain ⟨hf, hm⟩ := iW.mask rfl
        have := iW.orig
        have := hf.1
        simp [hm, clusteredWeight, iW.orig, hf.1]
    have := h2.1
    simp only [clusteredWeight, List.length_zipWith] at this ⊢
    omega
  · exact (List.toFinset_card_le _).trans_eq iW'.cents
  · intro x hx
    have hp := Aux.clustered_pulled h2 (Aux.masked_big iW hv)
    rw [h3] at hx ⊢
    obtain ⟨p, hp1, rfl⟩ := List.mem_iff_getElem.1 hx
    dsimp only at hp1 ⊢
    have hpi := hp1
    rw [hp.1] at hpi
    obtain ⟨c, hc1, hc2⟩ := hp.2 p _ (List.getElem?_eq_getElem hpi)
    rw [List.getElem?_eq_getElem hp1, Option.some.injEq] at hc2
    rw [hc2, List.mem_toFinset]
    exact List.mem_of_getElem? hc1

/-- **C119** (exceptions).  A forward pass fails if the algorithm that the layer brings for a weight does
not return one index of a centroid for every entry. -/
theorem C119_rejects (l : CustomLayer α) (c0 : String → List α) (weights : List (String × List α))
    {s0 s : List (PWeight α)} (es : List (PEvent α)) (hb : customBuild false l c0 weights = some s0)
    (hr : customRun false es s0 = some s) (k : ℕ) (n : String) (w0 : List α)
    (hk : weights[k]? = some (n, w0)) (f : Pull α) (hf : Spec.Brings l n f) :
    ∃ W, s[k]? = some W ∧
      (¬ Spec.PullFits (f W.cents W.orig) W.cents W.orig → customCall false s = none) := by
  have hi := Aux.customRun_inv ((Aux.customBuild_inv hb).imp fun _ _ h => h.1) hr
  obtain ⟨W, hW, iW⟩ := Aux.forall₂_at hi hk
  refine ⟨W, hW, fun hn => ?_⟩
  cases hc : customCall false s with
  | none => rfl
  | some s' =>
    obtain ⟨W2, W', h1, h2, -, -, -, h3, h4, -⟩ := C119_own l c0 weights es hb hr hc k n w0 hk
    rw [hW, Option.some.injEq] at h1
    subst h1
    rw [h4 f hf] at h3
    exact absurd h3 hn

/-- **C119** (no exceptions).  If the algorithms that the layer brings always return one index of a
centroid for every entry, then the wrapper can be built and used in every way. -/
theorem C119_total (ps : Bool) (l : CustomLayer α) (c0 : String → List α)
    (weights : List (String × List α)) (hne : ∀ e ∈ weights, c0 e.1 ≠ [])
    (hf : ∀ e ∈ weights, ∀ f, Spec.Brings l e.1 f → ∀ cs ws : List α, cs.length = (c0 e.1).length →
      Spec.PullFits (f cs ws) cs ws) :
    ∃ s0, customBuild ps l c0 weights = some s0 ∧ ∀ es, ∃ s, customRun ps es s0 = some s := by
  have hfit : ∀ e ∈ weights, ∀ cs ws : List α, cs.length = (c0 e.1).length →
      Spec.PullFits ((clusteringImpl l e.1 false).pull cs ws) cs ws := by
    intro e he cs ws hcs
    by_cases hex : ∃ f, Spec.Brings l e.1 f
    · obtain ⟨f, hb⟩ := hex
      rw [Aux.brings_pull.1 f hb]
      exact hf e he f hb cs ws hcs
    · rw [Aux.brings_pull.2 fun f hb => hex ⟨f, hb⟩]
      have hcne : cs ≠ [] := by
        intro h0
        have := hne e he
        rw [h0, List.length_nil] at hcs
        exact this (List.length_eq_zero_iff.1 hcs.symm)
      refine ⟨by simp [pullingIndices], fun i hi => ?_⟩
      obtain ⟨v, -, rfl⟩ := List.mem_map.1 hi
      have := (Aux.argmin_spec (cs.map fun c => |v - c|) (by simpa using hcne)).1
      rw [List.length_map] at this
      exact this
  have hbuild : ∀ ws : List (String × List α), (∀ e ∈ ws, e ∈ weights) →
      ∃ s0, customBuild ps l c0 ws = some s0 := by
    intro ws
    induction ws with
    | nil => intro _; exact ⟨[], rfl⟩
    | cons e ws ih =>
      intro hsub
      obtain ⟨n, w⟩ := e
      obtain ⟨t, ht⟩ := ih fun x hx => hsub x (List.mem_cons_of_mem _ hx)
      have h1 := hfit _ (hsub _ List.mem_cons_self) (c0 n) w rfl
      have : ∃ x, PWeight.build ps l (c0 n) n w = some x := by
        unfold PWeight.build
        cases ps with
        | false => exact ⟨_, rfl⟩
        | true =>
          simp only [if_true]
          rw [Aux.gather_some.2 ⟨h1, rfl⟩]
          exact ⟨_, rfl⟩
      obtain ⟨x, hx⟩ := this
      exact ⟨x :: t, by unfold customBuild; rw [hx]; dsimp only; rw [ht]; rfl⟩
  obtain ⟨s0, h0⟩ := hbuild weights fun _ h => h
  refine ⟨s0, h0, ?_⟩
  have hstart := (Aux.customBuild_inv h0).imp fun _ _ h => h.1
  have hcall : ∀ {es : List (String × List α)} {s : List (PWeight α)}, (∀ e ∈ es, e ∈ weights) →
      List.Forall₂ (Aux.CustomInv ps l c0) es s → ∃ s', customCall ps s = some s' := by
    intro es s hsub hi
    induction hi with
    | nil => exact ⟨[], rfl⟩
    | @cons e w es s iw _ ih =>
      obtain ⟨t, ht⟩ := ih fun x hx => hsub x (List.mem_cons_of_mem _ hx)
      have he := hsub _ List.mem_cons_self
      have hc : (if ps then resetZero w.cents w.zeroIdx else w.cents).length = (c0 e.1).length := by
        split
        · rw [Aux.custom_resetZero_length, iw.cents]
        · exact iw.cents
      have hws : (if ps then List.zipWith (· * ·) w.orig w.mask else w.orig).length = e.2.length := by
        cases ps with
        | false => simpa using iw.orig
        | true =>
          obtain ⟨hf, hm⟩ := iw.mask rfl
          simp [hm, clusteredWeight, iw.orig, hf.1]
      have h1 := hfit e he _ (if ps then List.zipWith (· * ·) w.orig w.mask else w.orig) hc
      have h2 := hfit e he (c0 e.1) e.2 rfl
      rw [← iw.pull] at h1 h2
      have : ∃ x, w.update ps = some x := by
        unfold PWeight.update
        dsimp only
        rw [if_pos (by rw [h1.1, hws, iw.pulling, h2.1]), Aux.gather_some.2 ⟨h1, rfl⟩]
        exact ⟨_, rfl⟩
      obtain ⟨x, hx⟩ := this
      exact ⟨x :: t, by unfold customCall; rw [hx]; dsimp only; rw [ht]; rfl⟩
  intro es
  have key : ∀ (es : List (PEvent α)) (s : List (PWeight α)),
      List.Forall₂ (Aux.CustomInv ps l c0) weights s → ∃ s', customRun ps es s = some s' := by
    intro es
    induction es with
    | nil => intro s _; exact ⟨s, rfl⟩
    | cons e es ih =>
      intro s hi
      have : ∃ t, customStep ps s e = some t := by
        cases e with
        | call => exact hcall (fun _ h => h) hi
        | assign os cs => exact ⟨_, rfl⟩
      obtain ⟨t, ht⟩ := this
      obtain ⟨s', h⟩ := ih t (Aux.customStep_inv hi ht)
      exact ⟨s', by unfold customRun; rw [ht]; exact h⟩
  exact key es s0 hstart

/-- **C119** (sparsity).  With sparsity preservation an entry whose first clustered value is zero stays
zero through every history, if the algorithm puts zeros to a zero centroid when there is one.

Partial: the documentation says that sparsity is preserved; an algorithm that puts zeros elsewhere does
not preserve it (`C119_sparsity_violated`). -/
theorem C119_sparsity_partial (l : CustomLayer α) (c0 : String → List α)
    (weights : List (String × List α)) {s0 s s' : List (PWeight α)} (es : List (PEvent α))
    (hb : customBuild true l c0 weights = some s0) (hr : customRun true es s0 = some s)
    (hc : customCall true s = some s') (k : ℕ) (n : String) (w0 : List α)
    (hk : weights[k]? = some (n, w0)) (f : Pull α) (hf : Spec.Brings l n f) (hne : c0 n ≠ [])
    (hz : ∀ (cs ws : List α) (p : ℕ), (0 : α) ∈ cs → ws[p]? = some 0 →
      ∃ i, (f cs ws)[p]? = some i ∧ cs[i]? = some 0)
    (p i : ℕ) (hp : p < w0.length) (hi0 : (f (c0 n) w0)[p]? = some i) (hc0 : (c0 n)[i]? = some 0) :
    ∃ W', s'[k]? = some W' ∧ W'.kernel[p]? = some 0 := by
  have hi := Aux.customRun_inv ((Aux.customBuild_inv hb).imp fun _ _ h => h.1) hr
  obtain ⟨W, hW, iW⟩ := Aux.forall₂_at hi hk
  obtain ⟨W', hW', hu⟩ := Aux.forall₂_at (Aux.customCall_forall.1 hc) hW
  obtain ⟨-, h2, h3⟩ := Aux.customUpdate_spec hu
  simp only [if_true] at h2 h3
  have hpull : W.pull = f := by rw [iW.pull, Aux.brings_pull.1 f hf]
  refine ⟨W', hW', ?_⟩
  obtain ⟨hfit, hm⟩ := iW.mask rfl
  rw [hpull] at hfit hm h2 h3
  dsimp only at hfit hm
  have hmask : W.mask[p]? = some 0 := by
    rw [hm, List.getElem?_map]
    have h1 : (clusteredWeight (c0 n) (f (c0 n) w0) w0)[p]? = some 0 := by
      obtain ⟨hp1, hpe⟩ := List.getElem?_eq_some_iff.1 hi0
      rw [List.getElem?_eq_getElem (by simp [clusteredWeight]; omega)]
      simp only [clusteredWeight, List.getElem_zipWith, clusteredEntry, addGradient, hpe,
        Option.some.injEq]
      rw [List.getD_eq_getElem?_getD, hc0, Option.getD_some, zero_mul]
    rw [h1]; simp
  have horig : W.orig.length = w0.length := iW.orig
  have hwz : (List.zipWith (· * ·) W.orig W.mask)[p]? = some 0 := by
    rw [List.getElem?_zipWith, hmask, List.getElem?_eq_getElem (by omega)]
    simp
  have hcz : (0 : α) ∈ resetZero W.cents W.zeroIdx := by
    have hlt : W.zeroIdx < W.cents.length := by
      rw [iW.zeroIdx rfl, iW.cents]
      have := (Aux.argmin_spec ((c0 n).map fun x => |x|) (by simpa using hne)).1
      simpa using this
    refine List.mem_map.2 ⟨W.cents[W.zeroIdx], List.getElem_mem _, ?_⟩
    rw [List.getD_eq_getElem _ _ hlt]
    simp
  obtain ⟨j, hj1, hj2⟩ := hz _ _ p hcz hwz
  rw [h3]
  dsimp only
  obtain ⟨hp1, hpe⟩ := List.getElem?_eq_some_iff.1 hj1
  have hl := h2.1
  rw [List.getElem?_eq_getElem (by simp only [clusteredWeight, List.length_zipWith] at hl ⊢; omega)]
  simp only [clusteredWeight, List.getElem_zipWith, clusteredEntry, addGradient, hpe, Option.some.injEq]
  rw [List.getD_eq_getElem?_getD, hj2, Option.getD_some, zero_mul]

/-! ## Concrete cases -/

namespace Example

/-- Associates weights by their sign, instead of with the nearest centroid. -/
def signPull : Pull ℚ := fun _ ws => ws.map fun w => if w < 0 then 0 else 1

/-- The nearest centroid in the list without its last element. -/
def shyPull : Pull ℚ := fun cs ws => ws.map (pullingIndex cs.dropLast)

/-- A layer with a `kernel` associated by `signPull` and an `embedding` without own algorithm. -/
def customLayer : CustomLayer ℚ := ⟨false, true, some fun n => if n = "kernel" then some signPull else none⟩

/-- Three centroids for every weight. -/
def customCents : String → List ℚ := fun _ => [-1, 0, 2]

def customWeights : List (String × List ℚ) := [("kernel", [-3, 5, 0]), ("embedding", [-3, 5, 0])]

/-- An algorithm that asks for a fourth centroid. -/
def greedyPull : Pull ℚ := fun _ ws => ws.map fun _ => 3

def greedyLayer : CustomLayer ℚ := ⟨false, true, some fun _ => some greedyPull⟩

end Example

/-- The layer brings an algorithm for one of its weights; the stripped layer has the values that this
algorithm chose, and the nearest centroids for the other weight. -/
example : Spec.Brings Example.customLayer "kernel" Example.signPull ∧
    (∀ f, ¬ Spec.Brings Example.customLayer "embedding" f) ∧
    ((customBuild false Example.customLayer Example.customCents Example.customWeights).bind
      (customStrip false)) = some [("kernel", [-1, 0, 0]), ("embedding", [-1, 2, 0])] := by
  refine ⟨⟨rfl, _, rfl, rfl⟩, ?_, by decide +kernel⟩
  rintro f ⟨-, m, hm, h⟩
  simp only [Example.customLayer, Option.some.injEq] at hm
  subst hm
  simp at h

/-- Its algorithm meets the hypothesis of `C119_total`. -/
example : ∀ cs ws : List ℚ, cs.length = 3 → Spec.PullFits (Example.signPull cs ws) cs ws := by
  intro cs ws h
  refine ⟨by simp [Example.signPull], fun i hi => ?_⟩
  obtain ⟨w, -, rfl⟩ := List.mem_map.1 hi
  split <;> omega

/-- The standard algorithm, brought by the layer itself, meets the hypothesis of
`C119_sparsity_partial`. -/
example (cs ws : List ℚ) (p : ℕ) (h0 : (0 : ℚ) ∈ cs) (hp : ws[p]? = some 0) :
    ∃ i, (pullingIndices cs ws)[p]? = some i ∧ cs[i]? = some 0 := by
  refine ⟨pullingIndex cs 0, by simp [pullingIndices, hp], ?_⟩
  obtain ⟨h, hmin, -⟩ := Aux.argmin_spec (cs.map fun c => |0 - c|) (by
    intro h; rw [List.map_eq_nil_iff] at h; rw [h] at h0; simp at h0)
  obtain ⟨j, hj, hj0⟩ := List.mem_iff_getElem.1 h0
  have h1 := hmin j (by simpa using hj)
  have hlt : pullingIndex cs 0 < cs.length := by simpa [pullingIndex] using h
  rw [List.getElem?_eq_getElem hlt]
  have h2 : |0 - cs[pullingIndex cs 0]| ≤ 0 := by
    simp only [List.getElem_map, hj0, sub_zero, abs_zero] at h1
    exact h1
  rw [zero_sub, abs_neg, abs_nonpos_iff] at h2
  exact congrArg some h2

/-- An index out of range: the wrapper can be built, but not called. -/
example : (customBuild false Example.greedyLayer Example.customCents Example.customWeights).isSome = true ∧
    ((customBuild false Example.greedyLayer Example.customCents Example.customWeights).bind
      (customCall false)) = none := by
  refine ⟨by decide +kernel, ?_⟩
  cases h : customBuild false Example.greedyLayer Example.customCents Example.customWeights with
  | none => rfl
  | some s =>
    obtain ⟨W, hW, hn⟩ := C119_rejects Example.greedyLayer Example.customCents Example.customWeights []
      h rfl 0 "kernel" [-3, 5, 0] rfl Example.greedyPull ⟨rfl, _, rfl, rfl⟩
    refine hn fun hfit => ?_
    have hb := Aux.customBuild_inv h
    obtain ⟨W2, h2, h3⟩ := Aux.forall₂_at hb (k := 0) (a := ("kernel", [-3, 5, 0])) rfl
    rw [hW, Option.some.injEq] at h2
    subst h2
    have := hfit.2 3 (by rw [h3.2.1]; simp [Example.greedyPull])
    rw [h3.2.2] at this
    simp [Example.customCents] at this

namespace Example

/-- An algorithm that puts everything but negative weights to the last centroid. -/
def lastPull : Pull ℚ := fun cs ws => ws.map fun w => if w < 0 then 1 else if w = 0 then cs.length - 1 else 2

def lastLayer : CustomLayer ℚ := ⟨false, true, some fun _ => some lastPull⟩

end Example

/-- **C119** (violated: sparsity).  An algorithm that does not put zeros to the zero centroid: the entry
that is zero in the first clustered tensor (because its weight is negative) is not zero after the next
forward pass, although sparsity is to be preserved. -/
theorem C119_sparsity_violated :
    Spec.Brings Example.lastLayer "kernel" Example.lastPull ∧
    (Example.lastPull [-1, 0, 2] [-3, 5])[0]? = some 1 ∧ ([-1, 0, 2] : List ℚ)[1]? = some 0 ∧
    ((customBuild true Example.lastLayer (fun _ => [-1, 0, 2]) [("kernel", [-3, 5])]).bind
      (customStrip true)) = some [("kernel", [2, 2])] := by
  refine ⟨⟨rfl, _, rfl, rfl⟩, by decide +kernel, by decide +kernel, by decide +kernel⟩

end Verif.Props
