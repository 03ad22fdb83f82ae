import Verif.Clustering.Wrapper
import Verif.Props.ClusterAlgorithm
import Verif.Props.Centroids

/-!
# C21, C22, C27, C29, C30: the clustering wrapper
-/

set_option linter.unusedSectionVars false

namespace Verif.Props
open Verif.Clustering

variable {ι : Type*} {α : Type*} [Field α] [LinearOrder α] [IsStrictOrderedRing α] [FloorRing α]

/-! ## Invariants -/

theorem Aux.resetZero_length (cs : List α) (z : ℕ) : (resetZero cs z).length = cs.length := by
  simp [resetZero]

theorem Aux.resetZero_get (cs : List α) (z : ℕ) (hz : z < cs.length) :
    (resetZero cs z)[z]? = some 0 := by
  simp [resetZero, List.getElem?_map, List.getElem?_eq_getElem hz]

/-- What never changes: mask, zero index, number of centroids. -/
theorem Aux.cstate_run (ps : Bool) (ch : ι → ℕ) (w0 : ι → α) (c0 : ℕ → List α)
    (es : List (CEvent ι α)) :
    let s := CState.run ps ch w0 c0 es
    s.mask = (CState.build ch w0 c0).mask ∧ s.zeroIdx = (CState.build ch w0 c0).zeroIdx ∧
      ∀ c, (s.cents c).length = (c0 c).length := by
  have key : ∀ (es : List (CEvent ι α)) (s0 : CState ι α),
      (es.foldl (CState.step ps ch) s0).mask = s0.mask ∧
      (es.foldl (CState.step ps ch) s0).zeroIdx = s0.zeroIdx ∧
      ∀ c, ((es.foldl (CState.step ps ch) s0).cents c).length = (s0.cents c).length := by
    intro es
    induction es with
    | nil => intro s0; exact ⟨rfl, rfl, fun _ => rfl⟩
    | cons e es ih =>
      intro s0
      obtain ⟨h1, h2, h3⟩ := ih (s0.step ps ch e)
      rw [List.foldl_cons, h1, h2]
      cases e with
      | call =>
        refine ⟨rfl, rfl, fun c => (h3 c).trans ?_⟩
        simp only [CState.step, CState.update]
        cases ps
        · rfl
        · simp only [if_true, Aux.resetZero_length]
      | assign o c =>
        refine ⟨rfl, rfl, fun k => (h3 k).trans ?_⟩
        simp [CState.step]
  exact key es (CState.build ch w0 c0)

theorem Aux.run_snoc (ps : Bool) (ch : ι → ℕ) (w0 : ι → α) (c0 : ℕ → List α)
    (es : List (CEvent ι α)) : CState.run ps ch w0 c0 (es ++ [.call]) =
      (CState.run ps ch w0 c0 es).update ps ch := by
  simp [CState.run, CState.step]

/-! ## C21 -/

/-- **C21.**  In every forward pass, after any history of optimizer steps and forward passes, every
entry of the kernel is a current centroid of its channel, and the kernel takes at most
`number_of_clusters` values (per channel).  Missing for the full claim: original weights at or below
-1e6, where it is false, see `C21_huge_weights_violated`. -/
theorem C21_clustered_partial (ps : Bool) (ch : ι → ℕ) (w0 : ι → α) (c0 : ℕ → List α) (n : ℕ)
    (hc0 : ∀ c, c0 c ≠ [] ∧ (c0 c).length ≤ n) (es : List (CEvent ι α)) :
    let s := CState.run ps ch w0 c0 (es ++ [.call])
    (∀ p, -1000000 < s.orig p → s.kernel p ∈ s.cents (ch p)) ∧
    (∀ c, (s.cents c).length = (c0 c).length) ∧
    ∀ c, Spec.AtMost n (fun p => ch p = c ∧ -1000000 < s.orig p) s.kernel := by
  have hlen := (Aux.cstate_run ps ch w0 c0 (es ++ [.call])).2.2
  have hmem : ∀ p, -1000000 < (CState.run ps ch w0 c0 (es ++ [.call])).orig p →
      (CState.run ps ch w0 c0 (es ++ [.call])).kernel p ∈
        (CState.run ps ch w0 c0 (es ++ [.call])).cents (ch p) := by
    intro p hp
    have hne : (CState.run ps ch w0 c0 (es ++ [.call])).cents (ch p) ≠ [] := by
      intro h
      have := hlen (ch p)
      rw [h] at this
      exact (hc0 (ch p)).1 (List.length_eq_zero_iff.1 this.symm)
    have hmask := (Aux.cstate_run ps ch w0 c0 es).1
    rw [Aux.run_snoc] at hp hne ⊢
    simp only [CState.update] at hp hne ⊢
    refine (C20_value _ hne _ ?_).1
    cases ps
    · simpa using hp
    · simp only [if_true]
      have hm : (CState.run true ch w0 c0 es).mask p = 1 ∨
          (CState.run true ch w0 c0 es).mask p = 0 := by
        rw [hmask]
        simp only [CState.build]
        split <;> simp
      rcases hm with hm | hm
      · rw [hm, mul_one]; exact hp
      · rw [hm, mul_zero]; norm_num
  refine ⟨hmem, hlen, fun c => ?_⟩
  refine ⟨((CState.run ps ch w0 c0 (es ++ [.call])).cents c).toFinset,
    ((List.toFinset_card_le _).trans (hlen c).le).trans (hc0 c).2, ?_⟩
  rintro p ⟨rfl, hp⟩
  rw [List.mem_toFinset]
  exact hmem p hp

/-- Consequence: with all weights above -1e6 and without per-channel clustering, the whole kernel
takes at most `number_of_clusters` values. -/
theorem C21_whole_kernel_partial (ps : Bool) (w0 : ι → α) (c0 : List α) (n : ℕ) (hne : c0 ≠ [])
    (hn : c0.length ≤ n) (es : List (CEvent ι α))
    (hw : ∀ p, -1000000 < (CState.run ps (fun _ => 0) w0 (fun _ => c0) (es ++ [.call])).orig p) :
    Spec.AtMost n (fun _ => True)
      (CState.run ps (fun _ => 0) w0 (fun _ => c0) (es ++ [.call])).kernel := by
  obtain ⟨-, -, h⟩ := C21_clustered_partial ps (fun _ => 0) w0 (fun _ => c0) n
    (fun _ => ⟨hne, hn⟩) es
  obtain ⟨S, hS, hmem⟩ := h 0
  exact ⟨S, hS, fun p _ => hmem p ⟨rfl, hw p⟩⟩

/-- The weights of the counterexample. -/
def Example.huge : ℕ → ℚ := fun p =>
  if p = 0 then -1000000 + 1 else if p = 1 then -1000000 - 1 else 5

/-- Below -1e6 the factor `sign(original_weight + 1e6)` flips the sign of the clustered weight: two
centroids give three values, one of which is not a centroid. -/
theorem C21_huge_weights_violated :
    ¬ Spec.AtMost 2 (fun p : ℕ => p < 3)
      (CState.run false (fun _ => 0) Example.huge (fun _ => [-1000000, 5]) [.call]).kernel := by
  rintro ⟨S, hcard, hS⟩
  have h0 := hS 0 (by omega)
  have h1 := hS 1 (by omega)
  have h2 := hS 2 (by omega)
  have e0 : (CState.run false (fun _ => 0) Example.huge (fun _ => [-1000000, 5]) [.call]).kernel 0
      = -1000000 := by decide +kernel
  have e1 : (CState.run false (fun _ => 0) Example.huge (fun _ => [-1000000, 5]) [.call]).kernel 1
      = 1000000 := by decide +kernel
  have e2 : (CState.run false (fun _ => 0) Example.huge (fun _ => [-1000000, 5]) [.call]).kernel 2
      = 5 := by decide +kernel
  rw [e0] at h0
  rw [e1] at h1
  rw [e2] at h2
  have hsub : ({-1000000, 1000000, 5} : Finset ℚ) ⊆ S := by
    intro x hx
    simp only [Finset.mem_insert, Finset.mem_singleton] at hx
    rcases hx with rfl | rfl | rfl <;> assumption
  have := Finset.card_le_card hsub
  have h3 : ({-1000000, 1000000, 5} : Finset ℚ).card = 3 := by decide +kernel
  omega

/-! ## C22 -/

theorem Aux.zeroIdx_lt (ch : ι → ℕ) (w0 : ι → α) (c0 : ℕ → List α) (c : ℕ) (h : c0 c ≠ []) :
    (CState.build ch w0 c0).zeroIdx c < (c0 c).length := by
  obtain ⟨h, -⟩ := Aux.argmin_spec ((c0 c).map fun x => |x|) (by simpa using h)
  simpa [CState.build] using h

/-- **C22 (zero centroid).**  With `preserve_sparsity`, in every forward pass of every history the
zero centroid of every channel is exactly 0. -/
theorem C22_zero_centroid (ch : ι → ℕ) (w0 : ι → α) (c0 : ℕ → List α) (es : List (CEvent ι α))
    (c : ℕ) (hc : c0 c ≠ []) :
    let s := CState.run true ch w0 c0 (es ++ [.call])
    (s.cents c)[s.zeroIdx c]? = some 0 := by
  obtain ⟨-, hz, hlen⟩ := Aux.cstate_run true ch w0 c0 es
  simp only
  rw [Aux.run_snoc]
  simp only [CState.update, if_true]
  apply Aux.resetZero_get
  rw [hz, hlen]
  exact Aux.zeroIdx_lt ch w0 c0 c hc

/-- **C22.**  With `preserve_sparsity` and a centroid 0 to begin with, a weight that is zero when the
wrapper is built is zero in the kernel of every forward pass, after any history, whatever the
optimizer does to the original weight and to the centroids. -/
theorem C22_zeros_stay (ch : ι → ℕ) (w0 : ι → α) (c0 : ℕ → List α) (p : ι)
    (h0 : (0 : α) ∈ c0 (ch p)) (hw : w0 p = 0) (es : List (CEvent ι α)) :
    (CState.run true ch w0 c0 (es ++ [.call])).kernel p = 0 := by
  have hc := C22_zero_centroid ch w0 c0 es (ch p) (List.ne_nil_of_mem h0)
  have hmask := (Aux.cstate_run true ch w0 c0 es).1
  have hm : (CState.run true ch w0 c0 es).mask p = 0 := by
    rw [hmask]
    simp only [CState.build]
    rw [if_neg]
    rw [not_not, hw]
    exact C20_fixed _ 0 (by norm_num) h0
  simp only at hc
  have hz := List.mem_of_getElem? hc
  rw [Aux.run_snoc] at hz ⊢
  simp only [CState.update, if_true] at hz ⊢
  rw [hm, mul_zero]
  exact C20_fixed _ 0 (by norm_num) hz

/-- The same for any weight that is assigned to the zero centroid when the wrapper is built: it is
pinned to zero for ever. -/
theorem C22_assigned_to_zero_stay (ch : ι → ℕ) (w0 : ι → α) (c0 : ℕ → List α) (p : ι)
    (hc0 : c0 (ch p) ≠ [])
    (hw : clusteredEntry (c0 (ch p)) (pullingIndex (c0 (ch p)) (w0 p)) (w0 p) = 0)
    (es : List (CEvent ι α)) :
    (CState.run true ch w0 c0 (es ++ [.call])).kernel p = 0 := by
  have hc := C22_zero_centroid ch w0 c0 es (ch p) hc0
  have hmask := (Aux.cstate_run true ch w0 c0 es).1
  have hm : (CState.run true ch w0 c0 es).mask p = 0 := by
    rw [hmask]
    simp only [CState.build]
    rw [if_neg]
    rw [not_not, hw]
  simp only at hc
  have hz := List.mem_of_getElem? hc
  rw [Aux.run_snoc] at hz ⊢
  simp only [CState.update, if_true] at hz ⊢
  rw [hm, mul_zero]
  exact C20_fixed _ 0 (by norm_num) hz

/-- **C22 (end to end).**  With the centroids the library computes (any of the initialisers), for a
flat weight tensor `ws`: zeros stay zero. -/
theorem C22_with_init (init : IntervalInit α) (hcount : Spec.Counts init)
    (hsign : Spec.KeepsSign init) (N : ℕ) (hN : 1 ≤ N) (ws : List α) (p : ℕ)
    (hw : ws.getD p 0 = 0) (es : List (CEvent ℕ α)) :
    (CState.run true (fun _ => 0) (fun p => ws.getD p 0) (fun _ => zeroCentroids init N ws)
      (es ++ [.call])).kernel p = 0 := by
  apply C22_zeros_stay
  · have := (C24_zero_centroid init hcount hsign N hN ws).1
    exact List.count_pos_iff.1 (by omega)
  · exact hw

namespace Example
example : (CState.run true (fun _ => 0) (fun p : ℕ => ([0, 3, -2, 0] : List ℚ).getD p 0)
    (fun _ => [-2, 0, 3]) [.call, .assign (fun _ => 7) (fun _ i => (i : ℚ) + 1/2), .call]).kernel 0
    = 0 := by decide +kernel
example : (CState.run true (fun _ => 0) (fun p : ℕ => ([0, 3, -2, 0] : List ℚ).getD p 0)
    (fun _ => [-2, 0, 3]) [.call, .assign (fun _ => 7) (fun _ i => (i : ℚ) + 1/2), .call]).kernel 1
    = 5/2 := by decide +kernel
example : (0 : ℚ) ∈ [(-2 : ℚ), 0, 3] := by decide +kernel
end Example

/-! ## C27 -/

/-- The weights left when the positions `ps` are taken out; `k` is the position of the first one. -/
def Spec.without {β : Type*} (ps : List ℕ) : ℕ → List β → List β
  | _, [] => []
  | k, x :: W => if k ∈ ps then Spec.without ps (k + 1) W else x :: Spec.without ps (k + 1) W

/-- The list with the entries at the positions in `items` replaced. -/
def Spec.replaced {β : Type*} (items : List (ℕ × β)) (W : List β) : List β :=
  W.mapIdx fun i x => (items.lookup i).getD x

theorem Aux.foldl_insert_cons {β : Type*} (k : ℕ) (y : β) (l : List β) (items : List (ℕ × β))
    (h : ∀ it ∈ items, k + 1 ≤ it.1) :
    items.foldl (fun l it => pyInsert l (it.1 - k) it.2) (y :: l) =
      y :: items.foldl (fun l it => pyInsert l (it.1 - (k + 1)) it.2) l := by
  induction items generalizing l with
  | nil => rfl
  | cons it items ih =>
    simp only [List.foldl_cons]
    have h1 : it.1 - k = (it.1 - (k + 1)) + 1 := by have := h it (by simp); omega
    have h2 : pyInsert (y :: l) (it.1 - k) it.2 = y :: pyInsert l (it.1 - (k + 1)) it.2 := by
      rw [h1]; simp [pyInsert]
    rw [h2, ih _ fun it' h' => h it' (by simp [h'])]

theorem Aux.without_congr {β : Type*} (ps qs : List ℕ) (k : ℕ) (W : List β)
    (h : ∀ j, k ≤ j → (j ∈ ps ↔ j ∈ qs)) : Spec.without ps k W = Spec.without qs k W := by
  induction W generalizing k with
  | nil => rfl
  | cons x W ih =>
    simp only [Spec.without, h k (le_refl k), ih (k + 1) fun j hj => h j (by omega)]

theorem Aux.lookup_none_of_lt {β : Type*} (items : List (ℕ × β)) (k : ℕ)
    (h : ∀ it ∈ items, k < it.1) : items.lookup k = none := by
  induction items with
  | nil => rfl
  | cons it items ih =>
    have h1 := h it (by simp)
    rw [List.lookup_cons]
    have : (k == it.1) = false := by simp; omega
    rw [this]
    exact ih fun it' h' => h it' (by simp [h'])

theorem Aux.restore (β : Type*) (k : ℕ) (W : List β) (items : List (ℕ × β))
    (hasc : (items.map (·.1)).Pairwise (· < ·)) (hlow : ∀ it ∈ items, k ≤ it.1)
    (hhigh : ∀ it ∈ items, it.1 < k + W.length) :
    items.foldl (fun l it => pyInsert l (it.1 - k) it.2) (Spec.without (items.map (·.1)) k W) =
      W.mapIdx fun i x => (items.lookup (k + i)).getD x := by
  induction W generalizing k items with
  | nil =>
    cases items with
    | nil => rfl
    | cons it items =>
      have h1 := hlow it (by simp)
      have h2 := hhigh it (by simp)
      simp at h2; omega
  | cons x W ih =>
    have hnot : ∀ items' : List (ℕ × β), (items'.map (·.1)).Pairwise (· < ·) →
        (∀ it ∈ items', k + 1 ≤ it.1) → (∀ it ∈ items', it.1 < k + 1 + W.length) →
        items'.foldl (fun l it => pyInsert l (it.1 - (k + 1)) it.2)
          (Spec.without (items'.map (·.1)) (k + 1) W) =
        W.mapIdx fun i x => (items'.lookup (k + 1 + i)).getD x := fun items' a b c =>
      ih (k + 1) items' a b c
    by_cases hk : k ∈ items.map (·.1)
    · -- the first item is at position k
      cases items with
      | nil => simp at hk
      | cons it items =>
        have hit : it.1 = k := by
          obtain ⟨it', h1, h2⟩ := List.mem_map.1 hk
          rcases List.mem_cons.1 h1 with rfl | h1
          · exact h2
          · simp only [List.map_cons, List.pairwise_cons] at hasc
            have h3 := hasc.1 it'.1 (List.mem_map_of_mem h1)
            have h4 := hlow it (by simp)
            omega
        have hlow' : ∀ it' ∈ items, k + 1 ≤ it'.1 := by
          intro it' h'
          simp only [List.map_cons, List.pairwise_cons] at hasc
          have := hasc.1 it'.1 (List.mem_map_of_mem h')
          omega
        have hhigh' : ∀ it' ∈ items, it'.1 < k + 1 + W.length := by
          intro it' h'
          have := hhigh it' (by simp [h'])
          simp at this; omega
        simp only [Spec.without, hk, if_true, List.foldl_cons]
        have hcongr : Spec.without ((it :: items).map (·.1)) (k + 1) W =
            Spec.without (items.map (·.1)) (k + 1) W := by
          apply Aux.without_congr
          intro j hj
          simp only [List.map_cons, List.mem_cons]
          constructor
          · rintro (h | h)
            · omega
            · exact h
          · exact .inr
        rw [hcongr, hit, Nat.sub_self]
        have hins : ∀ l : List β, pyInsert l 0 it.2 = it.2 :: l := by intro l; simp [pyInsert]
        rw [hins, Aux.foldl_insert_cons k _ _ _ hlow']
        rw [hnot items (List.pairwise_cons.1 (by simpa using hasc)).2 hlow' hhigh']
        rw [List.mapIdx_cons]
        have hit' : it = (k, it.2) := by rw [← hit]
        congr 1
        · rw [hit', Nat.add_zero]; simp
        · congr 1
          funext i y
          rw [hit', List.lookup_cons]
          have : (k + (i + 1) == k) = false := by simp
          simp only [this, Nat.add_assoc, Nat.add_comm 1 i]
    · have hlow' : ∀ it ∈ items, k + 1 ≤ it.1 := by
        intro it hit
        have h1 := hlow it hit
        have h2 : it.1 ≠ k := fun h => hk (h ▸ List.mem_map_of_mem hit)
        omega
      have hhigh' : ∀ it' ∈ items, it'.1 < k + 1 + W.length := by
        intro it' h'
        have := hhigh it' h'
        simp at this; omega
      simp only [Spec.without, hk, if_false]
      rw [Aux.foldl_insert_cons k _ _ _ hlow', hnot items hasc hlow' hhigh', List.mapIdx_cons]
      congr 1
      · rw [Nat.add_zero, Aux.lookup_none_of_lt items k fun it h => hlow' it h]; rfl
      · congr 1
        funext i y
        rw [Nat.add_assoc, Nat.add_comm 1 i]

/-- **C27.**  Stripping puts every clustered weight back at the position of the original weight and
leaves all other weights in place, for every layer whose clusterable weights are listed in the order
of their positions.  Missing for the full claim: other orders, where it is false, see
`C27_unordered_violated`. -/
theorem C27_restore_partial {β : Type*} (W : List β) (items : List (ℕ × β))
    (hasc : (items.map (·.1)).Pairwise (· < ·)) (hpos : ∀ it ∈ items, it.1 < W.length) :
    restoreWeights (Spec.without (items.map (·.1)) 0 W) items = Spec.replaced items W := by
  have := Aux.restore β 0 W items hasc (fun _ _ => Nat.zero_le _) (by simpa using hpos)
  simpa [restoreWeights, Spec.replaced] using this

/-- All RNN layers the library supports list their clusterable weights in that order. -/
theorem C27_rnn_ordered (counts : List ℕ) (off : ℕ) (h : ∀ c ∈ counts, 2 ≤ c) :
    (rnnPositions off counts).Pairwise (· < ·) ∧ ∀ p ∈ rnnPositions off counts,
      off ≤ p ∧ p < off + counts.sum := by
  induction counts generalizing off with
  | nil => simp [rnnPositions]
  | cons c counts ih =>
    obtain ⟨h1, h2⟩ := ih (off + c) fun c' h' => h c' (by simp [h'])
    have hc := h c (by simp)
    constructor
    · simp only [rnnPositions, List.pairwise_cons, List.mem_cons]
      refine ⟨?_, ?_, h1⟩
      · rintro p (rfl | hp)
        · omega
        · have := h2 p hp; omega
      · intro p hp
        have := h2 p hp; omega
    · intro p hp
      simp only [rnnPositions, List.mem_cons] at hp
      simp only [List.sum_cons]
      rcases hp with rfl | rfl | hp
      · omega
      · omega
      · have := h2 p hp; omega

/-- A custom `ClusterableLayer` that lists a later weight first gets its weights permuted. -/
theorem C27_unordered_violated :
    restoreWeights (Spec.without [1, 0] 0 ["a", "b", "c"]) [(1, "B"), (0, "A")] ≠
      Spec.replaced [(1, "B"), (0, "A")] ["a", "b", "c"] := by decide

namespace Example
example : restoreWeights (Spec.without [0, 1, 3, 4] 0 ["k0", "r0", "b0", "k1", "r1", "b1"])
    [(0, "K0"), (1, "R0"), (3, "K1"), (4, "R1")] = ["K0", "R0", "b0", "K1", "R1", "b1"] := by decide
example : ([0, 1, 3, 4] : List ℕ).Pairwise (· < ·) := by decide
end Example

/-! ## C29 -/

/-- **C29.**  A clustering wrapper is accepted exactly when the layer is clusterable and
`number_of_clusters` is an integer greater than 1 (2 with `preserve_sparsity`); the wrapper has these
settings, and clusters per channel only if asked to and the layer is a `Conv2D`. -/
theorem C29_accept (layer : CLayer) (n : Option ℤ) (ps pc : Bool) (w : CWrapper) :
    CWrapper.new layer n ps pc = .ok w ↔
      layer.clusterable = true ∧ (∃ k, n = some k ∧ 1 < k ∧ (ps = true → 2 < k) ∧
        w.numberOfClusters = k) ∧ w.layer = layer ∧ w.preserveSparsity = ps ∧
      (w.clusterPerChannel = true ↔ pc = true ∧ layer.kind = .conv2D) := by
  unfold CWrapper.new
  obtain ⟨wl, wn, wp, wc⟩ := w
  cases hc : layer.clusterable with
  | false => simp
  | true =>
    simp only [Bool.true_eq_false, if_false]
    cases n with
    | none => simp
    | some k =>
      simp only [Option.some.injEq, true_and]
      have hlim : ¬ (k ≤ (if ps = true then 2 else 1 : ℤ)) ↔ 1 < k ∧ (ps = true → 2 < k) := by
        cases ps <;> simp <;> omega
      by_cases hk : k ≤ (if ps = true then 2 else 1 : ℤ)
      · rw [if_pos hk]
        constructor
        · intro h; cases h
        · rintro ⟨⟨k', rfl, h1, h2, -⟩, -⟩
          exact absurd hk (hlim.2 ⟨h1, h2⟩)
      · rw [if_neg hk]
        simp only [Except.ok.injEq, CWrapper.mk.injEq]
        have := hlim.1 hk
        constructor
        · rintro ⟨rfl, rfl, rfl, rfl⟩
          refine ⟨⟨k, rfl, this.1, this.2, rfl⟩, rfl, rfl, ?_⟩
          split <;> simp_all
        · rintro ⟨⟨k', rfl, -, -, rfl⟩, rfl, rfl, h⟩
          refine ⟨rfl, rfl, rfl, ?_⟩
          split
          · rename_i hk'
            cases pc <;> cases wc <;> simp_all
          · rename_i hk'
            cases wc <;> simp_all

/-- What is rejected, and how. -/
theorem C29_reject (layer : CLayer) (k : ℤ) (ps pc : Bool) (hl : layer.clusterable = true) :
    (CWrapper.new layer (some k) ps pc = .error .tooFewClusters ↔
      k ≤ 1 ∨ (ps = true ∧ k ≤ 2)) ∧
    CWrapper.new layer none ps pc = .error .notInt := by
  unfold CWrapper.new
  simp only [hl, Bool.true_eq_false, if_false, and_true]
  cases ps <;> simp only [if_true, Bool.false_eq_true, if_false, false_and, or_false, true_and]
  · by_cases h : k ≤ 1 <;> simp [h]
  · by_cases h : k ≤ 2
    · simp [h]
    · simp [h]; omega

namespace Example
def dense : CLayer := ⟨.other, true, .channelsLast, 4, [4, 2]⟩
example : CWrapper.new dense (some 2) false true = .ok ⟨dense, 2, false, false⟩ := rfl
example : CWrapper.new dense (some 2) true false = .error .tooFewClusters := rfl
end Example

/-! ## C30 -/

/-- A `Conv2D` layer with kernel and bias: `channels` output channels, `perChannel` kernel entries
each. -/
def Spec.convWithBias (df : DataFormat) (channels perChannel : ℕ) : CLayer :=
  ⟨.conv2D, true, df, channels * perChannel, [channels * perChannel, channels]⟩

/-- A `Conv2D` layer without bias. -/
def Spec.convNoBias (df : DataFormat) (channels perChannel : ℕ) : CLayer :=
  ⟨.conv2D, true, df, channels * perChannel, [channels * perChannel]⟩

/-- **C30.**  A `Conv2D` layer with a bias is clustered exactly when the kernel (each output channel
of it, if clustering per channel) has more than `number_of_clusters` entries; otherwise it is
returned unchanged.  Missing for the full claim: layers without bias and other layer types, where it
is false (`C30_no_bias_violated`, `C30_no_bias_channels_first_violated`, `C30_dense_violated`). -/
theorem C30_conv_partial (df : DataFormat) (channels perChannel : ℕ) (hc : 0 < channels)
    (n : ℕ) (hn : 2 ≤ n) (pc : Bool) :
    addWrapper (Spec.convWithBias df channels perChannel) n false pc =
      .ok (if (n : ℕ) < (if pc then perChannel else channels * perChannel) then
        some ⟨Spec.convWithBias df channels perChannel, n, false, pc⟩ else none) := by
  have hcq : (channels : ℚ) ≠ 0 := by exact_mod_cast hc.ne'
  have hen : hasEnoughWeights (Spec.convWithBias df channels perChannel) n pc =
      .ok (decide (n < (if pc then perChannel else channels * perChannel))) := by
    unfold hasEnoughWeights Spec.convWithBias
    have : ((channels * perChannel : ℕ) : ℚ) / (channels : ℚ) = (perChannel : ℚ) := by
      push_cast; field_simp
    cases df <;> cases pc <;>
      simp only [List.cons_ne_nil, reduceCtorEq, if_false, List.length_cons, List.length_nil,
        List.getElem?_cons_succ, List.getElem?_cons_zero, Nat.add_one_sub_one, Nat.zero_add,
        if_true, Bool.false_eq_true, this, Int.cast_natCast, Nat.cast_le, not_le]
  have hk : (Spec.convWithBias df channels perChannel).kind = .conv2D := rfl
  unfold addWrapper
  rw [hk]
  simp only
  rw [hen]
  by_cases h : n < (if pc then perChannel else channels * perChannel)
  · simp only [h, decide_true, if_true]
    unfold CWrapper.new
    have hcl : (Spec.convWithBias df channels perChannel).clusterable = true := rfl
    have hlim : ¬ ((n : ℤ) ≤ (if false = true then 2 else 1 : ℤ)) := by simp; omega
    simp only [hcl, Bool.true_eq_false, if_false, hlim, hk, if_true, Except.map]
  · simp only [h, decide_false, if_false]

/-- A `Conv2D` layer without bias is never clustered per channel, however large it is: the code takes
the size of the kernel for the number of channels. -/
theorem C30_no_bias_violated (channels perChannel : ℕ) (n : ℕ) (hn : 2 ≤ n) :
    addWrapper (Spec.convNoBias .channelsLast channels perChannel) n false true = .ok none := by
  have : hasEnoughWeights (Spec.convNoBias .channelsLast channels perChannel) n true =
      .ok false := by
    unfold hasEnoughWeights Spec.convNoBias
    simp only [List.cons_ne_nil, if_false, List.length_cons, List.length_nil, Nat.zero_add,
      Nat.sub_self, List.getElem?_cons_zero, if_true]
    congr 1
    rw [decide_eq_false_iff_not, not_not]
    have h1 := div_self_le_one ((channels * perChannel : ℕ) : ℚ)
    have h2 : (2 : ℚ) ≤ (n : ℚ) := by exact_mod_cast hn
    have h3 : (((n : ℕ) : ℤ) : ℚ) = (n : ℚ) := by simp
    rw [h3]
    linarith
  unfold addWrapper
  rw [show (Spec.convNoBias .channelsLast channels perChannel).kind = .conv2D from rfl]
  simp only [this]

/-- With `channels_first` a `Conv2D` layer without bias makes `cluster_weights` fail (list index out
of range), even without per-channel clustering. -/
theorem C30_no_bias_channels_first_violated (channels perChannel : ℕ) (n : ℤ) (ps pc : Bool) :
    addWrapper (Spec.convNoBias .channelsFirst channels perChannel) n ps pc =
      .error .indexError := by
  simp [addWrapper, Spec.convNoBias, hasEnoughWeights]

/-- Layers other than `Conv2D` are clustered however few weights they have. -/
theorem C30_dense_violated : ∃ w, addWrapper ⟨.other, true, .channelsLast, 4, [4, 2]⟩ 100 false false
    = .ok (some w) := ⟨_, rfl⟩

namespace Example
example : addWrapper (Spec.convWithBias .channelsLast 8 9) 8 false true =
    .ok (some ⟨Spec.convWithBias .channelsLast 8 9, 8, false, true⟩) :=
  C30_conv_partial .channelsLast 8 9 (by decide) 8 (by decide) true
end Example
end Verif.Props
