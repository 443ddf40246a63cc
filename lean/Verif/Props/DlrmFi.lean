import Verif.Lemmas.DlrmFiEnd

/-!
Properties of the feature-interaction module of the DLRM design
(`custom_feature_interaction.cpp`).
-/
namespace RadSim.Dlrm

open Spec

/-- Whatever the timing on either side: the `i`-th word that leaves for MVM `ch` of
the first layer holds vector `ch + i * numOut`, put together from the streams of the
memory channels as the instructions say, and no word of a stream was used before it
came in.

Partial: asks that words are shown only while the module is ready for them
(`C114_violated` below tells why). -/
theorem C114_vectors_partial (cfg : Cfg) (ins : Nat → FiIn) (σ : Nat → Nat → Nat)
    (hd : 4 ≤ cfg.depth) (hpol : Polite cfg ins) (hfeed : Feeds cfg ins σ)
    (n : Nat) (s : FiSt) (hrun : fiAt cfg ins n = .ok s) :
    ∀ ch < cfg.numOut, ∀ i w, (sent cfg ins ch n)[i]? = some w →
      Holds w (vector cfg.prog σ (ch + i * cfg.numOut)) ∧
      ∀ c < cfg.numCh, popsBefore cfg.prog c (ch + i * cfg.numOut + 1) ≤
        (arrived cfg ins c n).length := by
  intro ch hch i w hw
  obtain ⟨k, hk⟩ := fi_inv hd hpol hfeed n s hrun
  have ho := hk.core.out ch hch i
  rw [List.getElem?_append_left (List.getElem?_eq_some_iff.mp hw).1, hw] at ho
  split at ho
  case isFalse => cases ho
  rename_i hlt
  refine ⟨?_, ?_⟩
  · intro e
    cases ho
    rw [elem_pack, getD_fillUp]
    intro x hx
    unfold fillUp at hx
    rcases List.mem_append.mp hx with hx | hx
    · exact assemble_lt σ _ _ x hx
    · rw [(List.mem_replicate.mp hx).2]; decide
  · intro c hc
    refine Nat.le_trans ?_ (hk.core.fifo c hc).1
    have hmono : ∀ d a, popsBefore cfg.prog c a ≤ popsBefore cfg.prog c (a + d) := by
      intro d a
      induction d with
      | zero => exact Nat.le_refl _
      | succ d ih =>
        rw [show a + (d + 1) = a + d + 1 by omega, popsBefore]
        omega
    have := hmono (k - (ch + i * cfg.numOut + 1)) (ch + i * cfg.numOut + 1)
    rwa [show ch + i * cfg.numOut + 1 + (k - (ch + i * cfg.numOut + 1)) = k by omega] at this

/-- With sound instructions the module never fails: no empty queue is read, no
vector is read past its end and no assertion fails, whatever the environment does. -/
theorem C115_never_fails (cfg : Cfg) (hs : ∀ inst ∈ cfg.prog, Sound cfg inst)
    (hp : cfg.prog ≠ []) (ho : 0 < cfg.numOut) (ins : Nat → FiIn) (n : Nat) :
    ∃ s, fiAt cfg ins n = .ok s := by
  obtain ⟨s, h, -⟩ := safe_run hs hp ho ins n
  exact ⟨s, h⟩

/-- Once the MVMs are ready, every vector whose words have come in leaves within a
number of periods that can be read off the design, and arrives with the contents the
instructions say.

Partial: asks for a polite sender, as `C114_vectors_partial`. -/
theorem C116_all_sent_partial (cfg : Cfg) (ins : Nat → FiIn) (σ : Nat → Nat → Nat)
    (hd : 4 ≤ cfg.depth) (hs : ∀ inst ∈ cfg.prog, Sound cfg inst) (hp : cfg.prog ≠ [])
    (ho : 0 < cfg.numOut) (hpol : Polite cfg ins) (hfeed : Feeds cfg ins σ) (n0 K : Nat)
    (hsup : Supplied cfg (fun c => (arrived cfg ins c n0).length) K)
    (hr : ∀ n, n0 ≤ n → ∀ ch < cfg.numOut, (ins n).tready ch = true) (n : Nat)
    (hn : n0 + 1 + K + cfg.depth ≤ n) :
    ∀ j < K, ∃ w, (sent cfg ins (j % cfg.numOut) n)[j / cfg.numOut]? = some w ∧
      Holds w (vector cfg.prog σ j) := by
  intro j hj
  have hjm : j % cfg.numOut + j / cfg.numOut * cfg.numOut = j := by
    rw [Nat.mul_comm]; exact Nat.mod_add_div _ _
  have hlen := all_sent hd hs hp ho hpol hfeed hsup hr n hn (j % cfg.numOut) (Nat.mod_lt _ ho)
    (j / cfg.numOut) (by omega)
  obtain ⟨s, h, -⟩ := safe_run hs hp ho ins n
  have hget := List.getElem?_eq_getElem hlen
  refine ⟨_, hget, ?_⟩
  have := (C114_vectors_partial cfg ins σ hd hpol hfeed n s h _ (Nat.mod_lt _ ho) _ _ hget).1
  rwa [hjm] at this

namespace FiExample

/-- Two channels, two MVMs, words of four elements; the first instruction takes two
elements of either channel, the second one sends zeros. -/
def cfg : Cfg where
  numCh := 2
  depth := 8
  numOut := 2
  inElems := 4
  outElems := 4
  prog := [[⟨1, 0, 1, true⟩, ⟨2, 1, 2, true⟩], [⟨0, 0, 3, false⟩]]

/-- Channel 0 shows a word in period 0, channel 1 in period 2; the MVMs are ready
from period 4 on. -/
def ins (n : Nat) : FiIn where
  rvalid := fun c => (n == 0 && c == 0) || (n == 2 && c == 1)
  rdata := fun c => if c = 0 then 1 + 2 ^ 16 * 2 else 3 + 2 ^ 16 * 4 + 2 ^ 32 * 5
  tready := fun _ => decide (4 ≤ n)

def σ (c _i : Nat) : Nat := if c = 0 then 1 + 2 ^ 16 * 2 else 3 + 2 ^ 16 * 4 + 2 ^ 32 * 5

theorem sound : ∀ inst ∈ cfg.prog, Sound cfg inst := by
  intro inst h
  simp only [cfg, List.mem_cons, List.not_mem_nil, or_false] at h
  rcases h with rfl | rfl <;> exact ⟨by decide, by decide, by decide, by decide⟩

theorem quiet (n : Nat) (h : 3 ≤ n) (c : Nat) : (ins n).rvalid c = false := by
  have h0 : (n == 0) = false := by simp; omega
  have h2 : (n == 2) = false := by simp; omega
  simp [ins, h0, h2]

theorem polite : Polite cfg ins := by
  intro n s hs c hc hv
  rcases Nat.lt_or_ge n 3 with hn | hn
  · have hall : ∀ n < 3, ∀ c < 2, (match fiAt cfg ins n with
        | .error _ => false
        | .ok s => rready s c) = true := by decide +kernel
    have := hall n hn c hc
    rw [hs] at this
    exact this
  · rw [quiet n hn] at hv; cases hv

theorem feeds : Feeds cfg ins σ := by
  intro c hc n i w hw
  have hstop : ∀ d, arrived cfg ins c (3 + d) = arrived cfg ins c 3 := by
    intro d
    induction d with
    | zero => rfl
    | succ d ih =>
      rw [show 3 + (d + 1) = 3 + d + 1 by omega, arrived, ih]
      split
      · simp
      · rw [quiet (3 + d) (by omega)]; simp
  have hall : ∀ c < 2, ∀ n < 4, ∀ w ∈ arrived cfg ins c n, ∀ i, w = σ c i := by
    have h : ∀ c < 2, ∀ n < 4, ∀ w ∈ arrived cfg ins c n, w = σ c 0 := by decide +kernel
    exact fun c hc n hn w hw i => h c hc n hn w hw
  have hm := List.mem_of_getElem? hw
  rcases Nat.lt_or_ge n 4 with hn | hn
  · exact hall c hc n hn w hm i
  · have := hstop (n - 3)
    rw [show 3 + (n - 3) = n by omega] at this
    rw [this] at hm
    exact hall c hc 3 (by omega) w hm i

theorem supplied : Supplied cfg (fun c => (arrived cfg ins c 4).length) 2 := by
  have h : ∀ j < 2, ∀ st ∈ instAt cfg.prog j, st.fifo ≠ 0 →
      popsBefore cfg.prog (st.fifo - 1) j < (arrived cfg ins (st.fifo - 1) 4).length := by
    decide +kernel
  exact h

/-- The hypotheses of `C116_all_sent_partial` (and so those of `C114_vectors_partial`
and `C115_never_fails`) hold together, and the two vectors are `1 2 4 5` and zeros. -/
example : (∀ j < 2, ∃ w, (sent cfg ins (j % 2) 15)[j / 2]? = some w ∧
      Holds w (vector cfg.prog σ j)) ∧
    vector cfg.prog σ 0 = [1, 2, 4, 5] ∧ vector cfg.prog σ 1 = [0, 0, 0, 0] ∧
    sent cfg ins 0 15 = [1 + 2 ^ 16 * 2 + 2 ^ 32 * 4 + 2 ^ 48 * 5] := by
  refine ⟨?_, by decide +kernel, by decide +kernel, by decide +kernel⟩
  exact C116_all_sent_partial cfg ins σ (by decide) sound (by decide) (by decide) polite feeds 4 2
    supplied (fun n hn ch _ => by simp [ins, hn]) 15 (by decide)

end FiExample

namespace FiTwice

/-- One channel, one MVM, words of one element, one instruction. -/
def cfg : Cfg where
  numCh := 1
  depth := 5
  numOut := 1
  inElems := 1
  outElems := 1
  prog := [[⟨1, 0, 0, true⟩]]

/-- The sender shows 7 in period 0, and from period 1 on it shows 9 and waits for
`rready`, which never comes. -/
def ins (n : Nat) : FiIn where
  rvalid := fun _ => true
  rdata := fun _ => if n = 0 then 7 else 9
  tready := fun _ => true

def σ (_c i : Nat) : Nat := if i = 0 then 7 else if i = 1 then 9 else 0

/-- From period 3 on nothing changes. -/
theorem settled : ∀ d, ∃ s, fiAt cfg ins (3 + d) = .ok s ∧ s.full 0 = true ∧
    s.inF 0 = [[9]] ∧ s.pc = 0 ∧ s.dest = 0 ∧ s.empty 0 = false ∧ s.ofull 0 = false ∧
    (s.outF 0).length = 1 := by
  intro d
  induction d with
  | zero =>
    have h : (match fiAt cfg ins 3 with
      | .error _ => false
      | .ok s => s.full 0 == true && s.inF 0 == [[9]] && s.pc == 0 && s.dest == 0 &&
          s.empty 0 == false && s.ofull 0 == false && (s.outF 0).length == 1) = true := by
      decide +kernel
    cases hs : fiAt cfg ins 3 with
    | error e => rw [hs] at h; cases h
    | ok s =>
      rw [hs] at h
      simp only [Bool.and_eq_true, beq_iff_eq] at h
      obtain ⟨⟨⟨⟨⟨⟨h1, h2⟩, h3⟩, h4⟩, h5⟩, h6⟩, h7⟩ := h
      exact ⟨s, rfl, h1, h2, h3, h4, h5, h6, h7⟩
  | succ d ih =>
    obtain ⟨s, h0, h1, h2, h3, h4, h5, h6, h7⟩ := ih
    have htv := (slack_run (by decide) _ s h0).tv 0 (by decide)
    obtain ⟨v, hv⟩ : ∃ v, s.outF 0 = [v] := by
      match ho : s.outF 0, h7 with
      | [v], _ => exact ⟨v, rfl⟩
    rw [hv] at htv
    have hin : ins (3 + d) = ⟨fun _ => true, fun _ => 9, fun _ => true⟩ := by
      simp [ins]
    rw [show 3 + (d + 1) = 3 + d + 1 by omega, fiAt, h0]
    dsimp only
    rw [hin]
    simp [fiTick, execute, h3, h4, h6, ready, h5, cfg, accept, h2, steps, copy, unpack, upd,
      finish, popsEmpty, hv, htv, drained, mark, List.range_succ]

theorem unready (n : Nat) (h : 1 ≤ n) (s : FiSt) (hs : fiAt cfg ins n = .ok s) :
    rready s 0 = false := by
  rcases Nat.lt_or_ge n 3 with hn | hn
  · have hall : ∀ n < 3, 1 ≤ n → (match fiAt cfg ins n with
        | .error _ => true
        | .ok s => rready s 0) = false := by decide +kernel
    have := hall n hn h
    rw [hs] at this
    exact this
  · obtain ⟨t, ht, h1, -⟩ := settled (n - 3)
    rw [show 3 + (n - 3) = n by omega, hs] at ht
    cases ht
    simp [rready, h1]

theorem steady : Steady cfg ins := by
  intro n s hs c hc _ hr
  refine ⟨rfl, ?_⟩
  have : n ≠ 0 := by
    rintro rfl
    cases hs
    cases hr
  simp [ins, this]

theorem feeds : Feeds cfg ins σ := by
  intro c hc n i w hw
  have hc0 : c = 0 := by
    have : c < 1 := hc
    omega
  subst hc0
  have hone : ∀ d, arrived cfg ins 0 (1 + d) = [7] := by
    intro d
    induction d with
    | zero => decide +kernel
    | succ d ih =>
      rw [show 1 + (d + 1) = 1 + d + 1 by omega, arrived, ih]
      split
      · rfl
      · rename_i s hs
        rw [unready (1 + d) (by omega) s hs]
        simp
  cases n with
  | zero => cases hw
  | succ n =>
    have := hone n
    rw [show 1 + n = n + 1 by omega] at this
    rw [this] at hw
    match i, hw with
    | 0, hw => cases hw; rfl

end FiTwice

/-- Without politeness the claim is false, even for a sender that keeps to the AXI
rule of holding what it shows until it is taken: the module takes a word whether or
not its `rready` is high, so a word shown while `rready` is low is taken in every
period. -/
theorem C114_violated : ¬ ∀ (cfg : Cfg) (ins : Nat → FiIn) (σ : Nat → Nat → Nat) (n : Nat) (s : FiSt),
    5 ≤ cfg.depth → (∀ inst ∈ cfg.prog, Sound cfg inst) → Steady cfg ins → Feeds cfg ins σ →
    fiAt cfg ins n = .ok s →
    ∀ ch < cfg.numOut, ∀ i w, (sent cfg ins ch n)[i]? = some w →
      Holds w (vector cfg.prog σ (ch + i * cfg.numOut)) := by
  intro h
  obtain ⟨s, hs, -⟩ := FiTwice.settled 3
  have hw : (sent FiTwice.cfg FiTwice.ins 0 6)[2]? = some 9 := by decide +kernel
  have := h FiTwice.cfg FiTwice.ins FiTwice.σ 6 s (by decide) (by
    intro inst hi
    simp only [FiTwice.cfg, List.mem_cons, List.not_mem_nil, or_false] at hi
    subst hi
    exact ⟨by decide, by decide, by decide, by decide⟩) FiTwice.steady FiTwice.feeds hs 0
    (by decide) 2 9 hw 0
  revert this
  decide +kernel

/-- An instruction that comes back to a FIFO it has popped reads an empty queue when
only one word has come in: the module looks at the `empty` signals once, before the
first step. -/
theorem C115_twice_violated :
    ∃ (cfg : Cfg) (ins : Nat → FiIn) (n : Nat), cfg.prog = [[⟨1, 0, 0, true⟩, ⟨1, 0, 0, true⟩]] ∧
      cfg.numCh = 1 ∧ cfg.inElems = 1 ∧ cfg.outElems = 2 ∧ cfg.depth = 64 ∧ cfg.numOut = 1 ∧
      (arrived cfg ins 0 n).length = 1 ∧ fiAt cfg ins n = .error .ub := by
  refine ⟨⟨1, 64, 1, 1, 2, [[⟨1, 0, 0, true⟩, ⟨1, 0, 0, true⟩]]⟩,
    fun n => ⟨fun c => n == 0 && c == 0, fun _ => 5, fun _ => true⟩, 2, rfl, rfl, rfl, rfl, rfl,
    rfl, by decide +kernel, by rfl⟩

end RadSim.Dlrm
