import Verif.Lemmas.Int8Ideal
import Verif.Props.Int8Mvm

/-! # The example design `mlp_int8`: compiler, loaders and network

C127: what the program of a module computes; C128: what the golden outputs are; C129: the last module sends a beginning of the
golden outputs, whatever the NoC does with time; C130: it sends all of them in the end, or nothing if a program is too long. -/

namespace RadSim.Int8

open Mlp (Along)

variable {D : Design} {c : Mvm}

/-- The shape: `limx` columns of blocks for each of the modules are just enough for the inputs, `limy` rows of blocks for the
outputs; and the outputs of a layer are shared out to the modules of the next one in full rounds. -/
theorem C127_int8_shape (h : D.Ok c) {l : Nat} (hl : l < D.layers) :
    (D.limx l - 1) * (D.mvms l * D.dim) < D.width l ∧ D.width l ≤ D.limx l * (D.mvms l * D.dim) ∧
      D.hidden l ≤ D.limy l * D.dim ∧ (l + 1 = D.layers → (D.limy l - 1) * D.dim < D.hidden l) ∧
      (l + 1 < D.layers → D.limy l = D.limx (l + 1) * D.mvms (l + 1)) := by
  have hd := h.dim_pos
  have hM := h.mvms l hl
  have hx := h.x hl
  have hy := h.y hl
  rw [← inDim_width]
  refine ⟨?_, ?_, hy.2.1 ▸ hy.2.2, fun he => ?_, fun hl' => (h.shape hl').2⟩
  · have hP : 0 < D.mvms l * D.dim := Nat.mul_pos hM hd
    have e : D.padX l = (D.inDim l + D.dim * D.mvms l - 1) / (D.dim * D.mvms l) * (D.dim * D.mvms l) := rfl
    rw [hx.2.1, Nat.mul_assoc, Nat.mul_comm D.dim] at e
    have e' := Nat.eq_of_mul_eq_mul_right hP e
    have h1 := Nat.div_mul_le_self (D.inDim l + D.mvms l * D.dim - 1) (D.mvms l * D.dim)
    rw [← e'] at h1
    have h2 := h.inDim_pos hl
    rw [Nat.sub_mul, Nat.one_mul]
    have h3 : D.mvms l * D.dim ≤ D.limx l * (D.mvms l * D.dim) := Nat.le_mul_of_pos_left _ hx.1
    omega
  · rw [← Nat.mul_assoc, ← hx.2.1]
    exact hx.2.2
  · have ho : D.outMvms l = 1 := by
      unfold Design.outMvms
      rw [if_pos (by omega)]
    have e : D.padY l = (D.hidden l + D.dim * D.outMvms l - 1) / (D.dim * D.outMvms l) * (D.dim * D.outMvms l) := rfl
    rw [hy.2.1, ho, Nat.mul_one] at e
    have e' := Nat.eq_of_mul_eq_mul_right hd e
    have h1 := Nat.div_mul_le_self (D.hidden l + D.dim - 1) D.dim
    rw [← e'] at h1
    have h2 := h.hidden l hl
    rw [Nat.sub_mul, Nat.one_mul]
    have h3 : D.dim ≤ D.limy l * D.dim := Nat.le_mul_of_pos_left _ hy.1
    omega

/-- What the program and the weights of a module make of any inputs and any vectors to be added. Result `t` belongs to test input
`t / limy` and block of rows `t % limy`. Its value is the product of the module's columns with that test input's blocks, plus the
vector to be added (unless the module is the first of its layer). Results of the last module of a layer are inputs of the modules
of the next layer in turn, or go to the collector; results of others are to be added by the next module. -/
theorem C127_int8_program (h : D.Ok c) {l m : Nat} (hl : l < D.layers) (hm : m < D.mvms l) {bs : List Beat}
    (hp : only 0 bs = D.instBeats l m) (hb : only 3 bs = D.weightBeats l m) {r : Ref} (hr : Ref.After c bs r) {t : Nat} {o : Out}
    (ho : r.out[t]? = some o) :
    (∀ d < D.dim, o.vec[d]? = some (
      ∑ a ∈ Finset.range (D.limx l), ∑ e ∈ Finset.range D.dim,
        ((inputsOf c bs).getD (t / D.limy l * D.limx l + a) []).getD e 0 *
          (if t % D.limy l * D.dim + d < D.hidden l ∧ (a * D.mvms l + m) * D.dim + e < D.width l then
            BitVec.ofInt 8 (D.weights l (t % D.limy l * D.dim + d) ((a * D.mvms l + m) * D.dim + e)) else 0) +
      if m = 0 then 0 else ((addsOf c bs).getD t []).getD d 0)) ∧
    (m + 1 < D.mvms l → o.input = false ∧ o.dest = D.place l (m + 1)) ∧
    (m + 1 = D.mvms l → l + 1 < D.layers → o.input = true ∧ o.dest = D.place (l + 1) (t % D.limy l % D.mvms (l + 1))) ∧
    (m + 1 = D.mvms l → l + 1 = D.layers → o.input = true ∧ o.dest = D.collector) := by
  obtain ⟨h1, -⟩ := results h hl hm hp hb (along_getD _) (fun _ => along_getD _) hr
  have h2 : o = result D l m (fun i => (inputsOf c bs).getD i []) (fun i => (addsOf c bs).getD i []) t := by
    rw [h1, List.getElem?_map, Option.map_eq_some_iff] at ho
    obtain ⟨i, hi, rfl⟩ := ho
    have := List.getElem?_eq_some_iff.1 hi
    obtain ⟨_, hi⟩ := this
    rw [List.getElem_range] at hi
    rw [hi]
  subst h2
  have hi : ∀ b : Bool, (result D l m (fun i => (inputsOf c bs).getD i []) (fun i => (addsOf c bs).getD i []) t).input = b ↔
      decide (m = D.mvms l - 1) = b := fun _ => Iff.rfl
  have hdst : (result D l m (fun i => (inputsOf c bs).getD i []) (fun i => (addsOf c bs).getD i []) t).dest =
      if l = D.layers - 1 ∧ m = D.mvms l - 1 then D.collector
      else if m = D.mvms l - 1 then D.place (l + 1) (t % D.limy l % D.mvms (l + 1)) else D.place l (m + 1) := rfl
  refine ⟨fun d hd => ?_, fun h3 => ?_, fun h3 h4 => ?_, fun h3 h4 => ?_⟩
  · unfold result
    rw [List.getElem?_map, List.getElem?_range hd, Option.map_some, Option.some.injEq]
    congr 1
    · apply Finset.sum_congr rfl
      intro a _
      apply Finset.sum_congr rfl
      intro e _
      congr 1
      unfold Design.matrix
      rw [inDim_width]
      split
      · rfl
      · rfl
    · by_cases hm0 : m = 0
      · rw [if_neg (by omega), if_pos hm0]
      · rw [if_pos hm0, if_neg hm0]
  · rw [hi, hdst, if_neg (by omega), if_neg (by omega)]
    exact ⟨decide_eq_false (by omega), rfl⟩
  · rw [hi, hdst, if_neg (by omega), if_pos (by omega)]
    exact ⟨decide_eq_true (by omega), rfl⟩
  · rw [hi, hdst, if_pos (by omega)]
    exact ⟨decide_eq_true (by omega), rfl⟩

/-- With the blocks of `K` test inputs there are `K * limy` results, and no more. -/
theorem C127_int8_count (h : D.Ok c) {l m : Nat} (hl : l < D.layers) (hm : m < D.mvms l) {bs : List Beat}
    (hp : only 0 bs = D.instBeats l m) (hb : only 3 bs = D.weightBeats l m) (K : Nat)
    (hI : (inputsOf c bs).length = K * D.limx l) (hR : m ≠ 0 → (addsOf c bs).length = K * D.limy l) :
    (∃ r, Ref.After c bs r ∧ r.out.length = K * D.limy l) ∧ ∀ r, Ref.After c bs r → r.out.length ≤ K * D.limy l := by
  have hle : ∀ r, Ref.After c bs r → r.out.length ≤ K * D.limy l := fun r hr =>
    (results h hl hm hp hb (along_getD _) (fun _ => along_getD _) hr).2 K (Nat.le_of_eq hI)
  refine ⟨?_, hle⟩
  obtain ⟨r, hr, hlen⟩ := (h.job (m := m) hl).reaches (c := c) (w := weights c bs) (I := inputsOf c bs) (R := addsOf c bs) (K := K)
    (Nat.le_of_eq hI.symm) (fun h0 => Nat.le_of_eq (hR (by simpa using h0)).symm)
  rw [← program_of hp] at hr
  exact ⟨r, hr, Nat.le_antisymm (hle r hr) hlen⟩

/-- An instruction in a beat of the loader is the one that was loaded. -/
theorem C127_int8_inst (i : Inst) : Inst.fromBv i.toBv = i ∧ (loadInst i).kind = 0 ∧ (loadInst i).inst = i :=
  ⟨fromBv_toBv i, loadInst_kind i, loadInst_inst i⟩

/-- The golden outputs have a line for each test input and block of outputs; each number is in the range of 8 bits and equal,
modulo 256, to the output of the network in integers, without padding and without any wrapping between the layers; behind the
last output there are zeros. -/
theorem C128_int8_golden (h : D.Ok c) :
    D.goldenFile.length = D.tests * D.limy (D.layers - 1) ∧
      ∀ k < D.tests, ∀ b < D.limy (D.layers - 1), ∀ e < D.dim, ∃ line v,
        D.goldenFile[k * D.limy (D.layers - 1) + b]? = some line ∧ line[e]? = some v ∧ -128 ≤ v ∧ v < 128 ∧
          v % 256 = (if b * D.dim + e < D.width D.layers then D.net D.layers k (b * D.dim + e) else 0) % 256 := by
  have hl : D.layers - 1 < D.layers := by have := h.layers; omega
  have hY := (h.y hl).1
  rw [goldenFile_eq h]
  refine ⟨by simp, fun k hk b hb e he => ⟨(List.range D.dim).map fun e => D.testOutput D.layers k (b * D.dim + e),
    D.testOutput D.layers k (b * D.dim + e), ?_, ?_, ?_⟩⟩
  · have hi : k * D.limy (D.layers - 1) + b < D.tests * D.limy (D.layers - 1) := by
      calc k * D.limy (D.layers - 1) + b < (k + 1) * D.limy (D.layers - 1) := by rw [Nat.add_mul]; omega
        _ ≤ _ := Nat.mul_le_mul_right _ hk
    rw [List.getElem?_map, List.getElem?_range hi, Option.map_some, Nat.mul_comm k, Nat.mul_add_div hY, Nat.div_eq_of_lt hb, Nat.add_zero,
      Nat.mul_add_mod, Nat.mod_eq_of_lt hb]
  · rw [List.getElem?_map, List.getElem?_range he]
    rfl
  · have h1 := testOutput_eq h D.layers k (b * D.dim + e) (Nat.le_refl _)
    rw [inDim_width] at h1
    have h2 : ∃ v, D.testOutput D.layers k (b * D.dim + e) = wrap8 v := by
      have hL : D.layers = D.layers - 1 + 1 := by have := h.layers; omega
      rw [hL]
      exact ⟨_, rfl⟩
    obtain ⟨v, hv⟩ := h2
    rw [hv] at h1 ⊢
    have h3 := congrArg BitVec.toInt h1
    rw [BitVec.toInt_ofInt, BitVec.toInt_ofInt, Int.bmod_def, Int.bmod_def] at h3
    unfold wrap8 at *
    refine ⟨by omega, by omega, ?_⟩
    split at h3 <;> split at h3 <;> omega

/-- The vector in a beat that was sent. -/
def TxBeat.vec (c : Mvm) (b : TxBeat) : Vec := (List.range c.lanes).map fun l => BitVec.ofNat 8 (b.data / 2 ^ (8 * l) % 2 ^ 8)

variable {t : Nat → Nat → Nat → Cycle}

/-- Whenever the NoC hands beats on and the adapters take them, in order and without loss: beat `i` that the last module sends is
for the collector, and its lanes are the outputs of the network, modulo 256, for test input `i / limy` from output
`i % limy * dim` on, with zeros behind the last; and there are no more beats than that. -/
theorem C129_int8_network (h : D.Ok c) (hw : Wired D c t) {n : Nat} {s : Sig} {y : Seen}
    (hr : run c (t (D.layers - 1) (D.mvms (D.layers - 1) - 1)) n = .ok (s, y)) {i : Nat} {b : TxBeat} (hb : y.sent[i]? = some b) :
    i < D.tests * D.limy (D.layers - 1) ∧ b.dest = (D.collector : Int) ∧ ∀ e < D.dim, b.data / 2 ^ (8 * e) % 2 ^ 8 =
      ((if i % D.limy (D.layers - 1) * D.dim + e < D.width D.layers then
        D.net D.layers (i / D.limy (D.layers - 1)) (i % D.limy (D.layers - 1) * D.dim + e) else 0) % 256).toNat := by
  rw [run_at h.fits, Except.ok.injEq] at hr
  have he : y = (sigAt c (t (D.layers - 1) (D.mvms (D.layers - 1) - 1)) n).2 := by rw [hr]
  subst he
  obtain ⟨h1, h2⟩ := last_sends h hw n
  have hi : i < D.tests * D.limy (D.layers - 1) := by
    have := (List.getElem?_eq_some_iff.1 hb).1
    omega
  have h3 : view c b = viewOut (ideal D (D.layers - 1) (D.mvms (D.layers - 1) - 1) i) := by
    apply h1 i
    rw [List.getElem?_map, hb]
    rfl
  rw [view, viewOut, Prod.mk.injEq, Prod.mk.injEq] at h3
  obtain ⟨h4, -, h5⟩ := h3
  refine ⟨hi, ?_, fun e he => ?_⟩
  · rw [h5]
    show ((D.dest (D.layers - 1) (D.mvms (D.layers - 1) - 1) (i % D.limy (D.layers - 1)) : Nat) : Int) = _
    unfold Design.dest
    rw [if_pos ⟨rfl, rfl⟩]
  · have h6 := congrArg (fun l : List Vec => l[i]?) (golden_ideal h)
    simp only [goldenFile_eq h, List.getElem?_map, List.getElem?_range hi, Option.map_some, Option.some.injEq] at h6
    rw [← h6] at h4
    have h7 := congrArg (fun l : Vec => l[e]?) h4
    simp only [Beat.vec, parse, List.getElem?_map, List.getElem?_range he, List.getElem?_range (h.dim ▸ he), Option.map_some,
      Option.some.injEq] at h7
    rw [testOutput_eq h _ _ _ (Nat.le_refl _), inDim_width] at h7
    have h8 := congrArg BitVec.toNat h7
    rw [BitVec.toNat_ofNat, BitVec.toNat_ofInt, Nat.mod_mod] at h8
    exact h8

theorem along_prefix {α : Type} {f : Nat → α} {l : List α} (h : Along f l) {n : Nat} (hn : l.length ≤ n) :
    l <+: (List.range n).map f := by
  rw [List.prefix_iff_getElem?]
  intro i hi
  rw [List.getElem?_map, List.getElem?_range (by omega), Option.map_some, Option.some.injEq]
  exact (h i _ (List.getElem?_eq_getElem hi)).symm

/-- ... so the vectors that the last module sends are a beginning of the golden outputs. -/
theorem C129_int8_golden (h : D.Ok c) (hw : Wired D c t) {n : Nat} {s : Sig} {y : Seen}
    (hr : run c (t (D.layers - 1) (D.mvms (D.layers - 1) - 1)) n = .ok (s, y)) :
    y.sent.map (TxBeat.vec c) <+: D.goldenFile.map parse := by
  rw [run_at h.fits, Except.ok.injEq] at hr
  have he : y = (sigAt c (t (D.layers - 1) (D.mvms (D.layers - 1) - 1)) n).2 := by rw [hr]
  subst he
  obtain ⟨h1, h2⟩ := last_sends h hw n
  rw [golden_ideal h]
  have h3 := (along_prefix h1 (n := D.tests * D.limy (D.layers - 1)) (by rw [List.length_map]; exact h2)).map Prod.fst
  rw [List.map_map, List.map_map] at h3
  exact h3

/-- If moreover the NoC never stops and the FIFOs have room for the blocks of all test inputs, then all golden outputs come in the
end. -/
theorem C130_int8_ends_partial (h : D.Ok c) (hw : Wired D c t) (hv : Delivers D c t) (hs : Small D c)
    (hd : ∀ l < D.layers, ∀ m < D.mvms l, Drains (t l m)) :
    ∃ n s y, run c (t (D.layers - 1) (D.mvms (D.layers - 1) - 1)) n = .ok (s, y) ∧
      y.sent.map (TxBeat.vec c) = D.goldenFile.map parse := by
  have hl : D.layers - 1 < D.layers := by have := h.layers; omega
  have hm : D.mvms (D.layers - 1) - 1 < D.mvms (D.layers - 1) := by have := h.mvms _ hl; omega
  obtain ⟨n, hn⟩ := all_send h hw hv hs hd _ hl _ hm
  refine ⟨n, _, _, run_at h.fits _ n, eq_of_prefix_length (C129_int8_golden h hw (run_at h.fits _ n)) ?_⟩
  rw [List.length_map, List.length_map, hn, (C128_int8_golden h).1]

/-- The compiler does not check that a program fits into its FIFO: one of more than `FIFOD - 3` instructions is never complete, so
the module gets no input and sends nothing, whatever the NoC does. -/
theorem C130_int8_too_long (hc : c.Fits) (hw : Wired D c t) {l m : Nat} (hl : l < D.layers) (hm : m < D.mvms l)
    (hlong : c.fifoDepth - 3 < D.limx l * D.limy l) {n : Nat} {s : Sig} {y : Seen} (hr : run c (t l m) n = .ok (s, y)) :
    (∀ b ∈ y.shown (t l m n), b.kind ≠ 2) ∧ y.sent = [] := by
  have hlen : (D.instBeats l m).length = D.limx l * D.limy l := by
    unfold Design.instBeats Design.instFile
    simp
  have key : ∀ n, ∀ b ∈ (sigAt c (t l m) n).2.shown (t l m n), b.kind ≠ 2 := by
    intro n
    have step : ∀ n, (∀ b ∈ (sigAt c (t l m) n).2.taken, b.kind ≠ 2) → ∀ b ∈ (sigAt c (t l m) n).2.shown (t l m n), b.kind ≠ 2 := by
      intro n ht b hb hk
      have ho : Ordered (sigAt c (t l m) n).2.taken := ⟨_, [], (List.append_nil _).symm, ht, by simp⟩
      have hcap := (C126_int8_capacity hc (run_at hc (t l m) n) ho).1
      unfold Seen.shown at hb
      rcases List.mem_append.1 hb with hb | hb
      · exact ht b hb hk
      · have hrx : (t l m n).rx = some b := by simpa using hb
        have := (hw.loaded l hl m hm n _ _ (run_at hc (t l m) n) (sigAt c (t l m) n).2.taken b [] (by
          unfold Seen.shown
          rw [hrx]
          rfl) hk).1
        have h3 : (programOf (sigAt c (t l m) n).2.taken).length = (only 0 (sigAt c (t l m) n).2.taken).length := by
          unfold programOf only
          rw [List.length_map]
        rw [this, hlen] at h3
        omega
    induction n with
    | zero => exact step 0 (by intro b hb; exact absurd hb (by simp [sigAt]))
    | succ n ih =>
      apply step
      intro b hb
      apply ih
      have e : (sigAt c (t l m) (n + 1)).2.taken = (sigAt c (t l m) n).2.taken ++ ((t l m n).rx.filter fun b =>
        rxReady c (sigAt c (t l m) n).1 b.user).toList := rfl
      rw [e] at hb
      unfold Seen.shown
      rcases List.mem_append.1 hb with hb | hb
      · exact List.mem_append.2 (.inl hb)
      · refine List.mem_append.2 (.inr ?_)
        rw [Option.mem_toList, Option.filter_eq_some_iff] at hb
        rw [Option.mem_toList]
        exact hb.1
  rw [run_at hc, Except.ok.injEq] at hr
  have he : y = (sigAt c (t l m) n).2 := by rw [hr]
  subst he
  refine ⟨key n, ?_⟩
  have ht : ∀ b ∈ (sigAt c (t l m) n).2.taken, b.kind ≠ 2 := fun b hb => key n b (List.mem_append.2 (.inl hb))
  have ho : Ordered (sigAt c (t l m) n).2.taken := ⟨_, [], (List.append_nil _).symm, ht, by simp⟩
  obtain ⟨r, h1, h2⟩ := C123_int8_mvm_partial hc (run_at hc (t l m) n) ho
  have hin : inputsOf c (sigAt c (t l m) n).2.taken = [] := by
    unfold inputsOf
    rw [List.map_eq_nil_iff, List.filter_eq_nil_iff]
    intro b hb
    simpa using ht b hb
  unfold Ref.After at h1
  rw [hin] at h1
  have hout : r.out = [] := by
    rcases Relation.ReflTransGen.cases_head h1 with e | ⟨r1, hn1, -⟩
    · rw [← e]; rfl
    · obtain ⟨i, x, xs, -, hx, -⟩ := Ref.next_cases hn1
      exact absurd hx (by simp [Ref.start])
  rw [hout, List.take_nil] at h2
  exact List.forall₂_nil_right_iff.1 h2

/-! ## examples -/

/-- Two layers on 2 lanes: 3 inputs, 3 hidden values on 2 modules each, 2 outputs. -/
def tiny : Design where
  dim := 2
  tests := 2
  layers := 2
  input := 3
  hidden := fun l => if l = 0 then 3 else 2
  mvms := fun l => if l = 0 then 2 else 1
  weights := fun l y x => (l : Int) + 3 * y - 2 * x + 1
  inputs := fun k x => 7 * (k : Int) - 30 * x
  place := fun l m => 2 * l + m
  collector := 9

theorem tiny_ok : tiny.Ok two where
  fits := two_fits
  dim := rfl
  layers := by decide
  input := by decide
  hidden := by decide
  mvms := by decide
  place := by decide
  collector := by decide
  distinct := by decide
  room := by decide
  words := by decide

theorem tiny_small : Small tiny two := by
  unfold Small
  decide

/-- The network in integers leaves the range of 8 bits, the golden outputs do not: 1080 = 56 modulo 256. -/
example : (List.range 2).map (fun k => (List.range 2).map (tiny.net 2 k)) = [[1080, 540], [828, 666]] := by decide +kernel

example : tiny.goldenFile = [[56, 28], [60, -102]] := by decide +kernel

/-- `C128_int8_golden` on it. -/
example : tiny.goldenFile.length = 2 := (C128_int8_golden tiny_ok).1

example : (tiny.limx 0, tiny.limy 0, tiny.limx 1, tiny.limy 1) = (1, 2, 2, 1) := by decide

/-- The beats of module 1 of layer 0 of `tiny`, with the blocks of one test input and two vectors to be added. -/
def tinyBeats : List Beat :=
  tiny.weightBeats 0 1 ++ tiny.instBeats 0 1 ++ [inputBeat 5 6, ⟨100 + 2 ^ 8 * 200, 1 <<< 9⟩, ⟨1 + 2 ^ 8 * 2, 1 <<< 9⟩]

/-- `C127_int8_program` and `C127_int8_count` on them: two results for the last module's destinations, the modules of layer 1. -/
example : ∃ r o, Ref.After two tinyBeats r ∧ r.out.length = 2 ∧ r.out[1]? = some o ∧ o.input = true ∧ o.dest = 2 := by
  have hp : only 0 tinyBeats = tiny.instBeats 0 1 := by decide +kernel
  have hb : only 3 tinyBeats = tiny.weightBeats 0 1 := by decide +kernel
  obtain ⟨⟨r, hr, hl⟩, -⟩ := C127_int8_count tiny_ok (l := 0) (m := 1) (by decide) (by decide) hp hb 1 (by decide +kernel)
    (fun _ => by decide +kernel)
  have hl2 : r.out.length = 2 := hl
  have ho : r.out[1]? = some r.out[1] := List.getElem?_eq_getElem (by omega)
  have h1 := (C127_int8_program tiny_ok (by decide) (by decide) hp hb hr ho).2.2.1 (by decide) (by decide)
  exact ⟨r, _, hr, hl2, ho, h1.1, h1.2⟩

/-- `C127_int8_shape` on it. -/
example : tiny.limy 0 = tiny.limx 1 * tiny.mvms 1 := (C127_int8_shape tiny_ok (l := 0) (by decide)).2.2.2.2 (by decide)

/-- An instruction with every field in use. -/
example : Inst.fromBv (Inst.mk true 300 400 511 true true true false).toBv = Inst.mk true 300 400 511 true true true false :=
  (C127_int8_inst _).1

/-- A network that hands everything on in the next cycle meets all conditions. -/
theorem tiny_runs : Wired tiny two (idealT tiny two) ∧ Delivers tiny two (idealT tiny two) ∧
    ∀ l < tiny.layers, ∀ m < tiny.mvms l, Drains (idealT tiny two l m) :=
  ⟨ideal_wired two_fits, ideal_delivers two_fits, fun l _ m _ => ideal_drains l m⟩

/-- `C130_int8_ends_partial` on it: 1080, 540, 828 and 666 come out modulo 256. -/
example : ∃ n s y, run two (idealT tiny two 1 0) n = .ok (s, y) ∧ y.sent.map (TxBeat.vec two) = [[56, 28], [60, 154]] := by
  obtain ⟨n, s, y, h1, h2⟩ := C130_int8_ends_partial tiny_ok tiny_runs.1 tiny_runs.2.1 tiny_small tiny_runs.2.2
  exact ⟨n, s, y, h1, h2.trans (by decide +kernel)⟩

/-- `C129_int8_network` on it. -/
example {n : Nat} {s : Sig} {y : Seen} (hr : run two (idealT tiny two 1 0) n = .ok (s, y)) {b : TxBeat} (hb : y.sent[1]? = some b) :
    b.dest = 9 ∧ b.data / 2 ^ 8 % 2 ^ 8 = 154 := by
  obtain ⟨-, h1, h2⟩ := C129_int8_network tiny_ok tiny_runs.1 hr hb
  exact ⟨h1, (h2 1 (by decide)).trans (by decide +kernel)⟩

example {n : Nat} {s : Sig} {y : Seen} (hr : run two (idealT tiny two 1 0) n = .ok (s, y)) :
    y.sent.map (TxBeat.vec two) <+: [[56, 28], [60, 154]] :=
  (C129_int8_golden tiny_ok tiny_runs.1 hr).trans (by
    have : tiny.goldenFile.map parse = [[56, 28], [60, 154]] := by decide +kernel
    rw [this])

/-- A single layer of 512 inputs and 512 outputs on one module, which the compiler accepts: 64 instructions. -/
def large : Design where
  dim := 64
  tests := 1
  layers := 1
  input := 512
  hidden := fun _ => 512
  mvms := fun _ => 1
  weights := fun _ _ _ => 1
  inputs := fun _ _ => 1
  place := fun _ _ => 0
  collector := 1

/-- With the constants of the source and a NoC that hands everything on at once, such a design sends nothing, ever. -/
theorem C130_int8_ends_violated : ∃ (D : Design) (t : Nat → Nat → Nat → Cycle), D.dim = actual.lanes ∧ D.layers = 1 ∧ D.mvms 0 = 1 ∧
    D.input = 512 ∧ D.hidden 0 = 512 ∧ Wired D actual t ∧ Delivers D actual t ∧ Drains (t 0 0) ∧
    ∀ n s y, run actual (t 0 0) n = .ok (s, y) → y.sent = [] :=
  ⟨large, idealT large actual, rfl, rfl, rfl, rfl, rfl, ideal_wired actual_fits, ideal_delivers actual_fits, ideal_drains 0 0,
    fun _ _ _ hr => (C130_int8_too_long actual_fits (ideal_wired actual_fits) (by decide) (by decide) (by decide) hr).2⟩

end RadSim.Int8
