import Verif.Spec.Dlrm

/-! Lemmas about the feature-interaction module of the DLRM design. -/
namespace RadSim.Dlrm

open Spec

theorem pow_split (e : Nat) : 2 ^ (16 * (e + 1)) = 2 ^ 16 * 2 ^ (16 * e) := by
  rw [show 16 * (e + 1) = 16 + 16 * e by omega, Nat.pow_add]

theorem elem_succ (w e : Nat) : elem w (e + 1) = elem (w / 2 ^ 16) e := by
  unfold elem
  rw [pow_split, Nat.div_div_eq_div_mul]

theorem elem_zero (w : Nat) : elem w 0 = w % 2 ^ 16 := by simp [elem]

theorem unpack_get (n w e : Nat) :
    (unpack n w)[e]? = if e < n then some (elem w e) else none := by
  induction n generalizing w e with
  | zero => simp [unpack]
  | succ n ih =>
    cases e with
    | zero => simp [unpack, elem_zero]
    | succ e => simp [unpack, ih, elem_succ]

theorem elem_pack (v : Vec) (hv : ∀ x ∈ v, x < 2 ^ 16) (e : Nat) :
    elem (pack v) e = (v[e]?).getD 0 := by
  induction v generalizing e with
  | nil => simp [pack, elem]
  | cons x xs ih =>
    have hx : x < 2 ^ 16 := hv x (by simp)
    cases e with
    | zero =>
      simp only [pack, elem_zero, List.getElem?_cons_zero, Option.getD_some]
      omega
    | succ e =>
      simp only [elem_succ, pack, List.getElem?_cons_succ]
      rw [show (x % 2 ^ 16 + 2 ^ 16 * pack xs) / 2 ^ 16 = pack xs by omega]
      exact ih (fun y hy => hv y (by simp [hy])) e

theorem elem_zeroWord (e : Nat) : elem 0 e = 0 := by simp [elem]

theorem elem_lt (w e : Nat) : elem w e < 2 ^ 16 := Nat.mod_lt _ (by decide)

/-- The words of a FIFO: `m` words of channel `c` from the `a`-th on. -/
def seg (cfg : Cfg) (σ : Nat → Nat → Nat) (c a m : Nat) : List Vec :=
  (List.range' a m).map fun j => unpack cfg.inElems (σ c j)

theorem copy_ok (cfg : Cfg) (tmp : Vec) (g : Nat → Nat)
    (hg : ∀ e x, tmp[e]? = some x → x = g e) :
    ∀ n e acc v, copy cfg tmp n e acc = .ok v → v = acc ++ (List.range' e n).map g := by
  intro n
  induction n with
  | zero => intro e acc v h; simp [copy] at h; simp [h]
  | succ n ih =>
    intro e acc v h
    unfold copy at h
    split at h
    · split at h
      · cases h
      · rename_i x hx
        have := ih _ _ _ h
        rw [this, List.range'_succ, hg e x hx]
        simp
    · cases h

/-- An instruction that runs makes the vector that the streams say, and takes off
the FIFOs what it says. -/
theorem steps_ok (cfg : Cfg) (σ : Nat → Nat → Nat) :
    ∀ (inst : Inst) (f : Nat → List Vec) (pos len : Nat → Nat) (acc : Vec) f' v,
      (∀ st ∈ inst, st.fifo ≤ cfg.numCh) →
      (∀ c < cfg.numCh, f c = seg cfg σ c (pos c) (len c)) →
      steps cfg inst f acc = .ok (f', v) →
      v = acc ++ assemble σ pos inst ∧
      (∀ c < cfg.numCh, popsIn c inst ≤ len c ∧
        f' c = seg cfg σ c (pos c + popsIn c inst) (len c - popsIn c inst)) := by
  intro inst
  induction inst with
  | nil =>
    intro f pos len acc f' v _ hf h
    simp only [steps, Except.ok.injEq, Prod.mk.injEq] at h
    obtain ⟨rfl, rfl⟩ := h
    refine ⟨by simp [assemble], fun c hc => ?_⟩
    simpa [popsIn] using hf c hc
  | cons st r ih =>
    intro f pos len acc f' v hch hf h
    have hr : ∀ st ∈ r, st.fifo ≤ cfg.numCh := fun x hx => hch x (by simp [hx])
    unfold steps at h
    by_cases h0 : st.fifo = 0
    · rw [if_pos h0] at h
      split at h
      · cases h
      · rename_i acc' hcp
        have hacc := copy_ok cfg _ (fun _ => 0) (by
          intro e x hx
          rw [List.getElem?_replicate] at hx
          split at hx <;> simp_all) _ _ _ _ hcp
        obtain ⟨h1, h2⟩ := ih f pos len acc' f' v hr hf h
        have hpos : (fun c => if st.pop = true ∧ st.fifo = c + 1 then pos c + 1 else pos c) = pos := by
          funext c
          rw [if_neg]
          rintro ⟨-, h⟩
          omega
        refine ⟨?_, fun c hc => ?_⟩
        · rw [h1, hacc]
          simp only [assemble, h0, if_true, List.append_assoc]
          rw [show (fun c => if st.pop = true ∧ (0 : Nat) = c + 1 then pos c + 1 else pos c) = pos by
            rw [← hpos, h0]
            funext c
            simp]
        · have : popsIn c (st :: r) = popsIn c r := by
            simp [popsIn, h0]
          rw [this]
          exact h2 c hc
    · rw [if_neg h0] at h
      have hlt : st.fifo - 1 < cfg.numCh := by
        have := hch st (by simp)
        omega
      split at h
      · cases h
      · rename_i w q hq
        have hseg := hf _ hlt
        rw [hq] at hseg
        obtain ⟨m, hm⟩ : ∃ m, len (st.fifo - 1) = m + 1 := by
          cases hl : len (st.fifo - 1) with
          | zero => rw [hl] at hseg; simp [seg] at hseg
          | succ m => exact ⟨m, rfl⟩
        rw [hm] at hseg
        simp only [seg, List.range'_succ, List.map_cons, List.cons.injEq] at hseg
        obtain ⟨hw, hq'⟩ := hseg
        split at h
        · cases h
        · rename_i acc' hcp
          have hacc := copy_ok cfg _ (elem (σ (st.fifo - 1) (pos (st.fifo - 1)))) (by
            intro e x hx
            rw [hw, unpack_get] at hx
            split at hx <;> simp_all) _ _ _ _ hcp
          let pos' := fun c => if st.pop = true ∧ st.fifo = c + 1 then pos c + 1 else pos c
          let len' := fun c => if st.pop = true ∧ st.fifo = c + 1 then len c - 1 else len c
          obtain ⟨h1, h2⟩ := ih _ pos' len' acc' f' v hr (by
            intro c hc
            by_cases hp : st.pop = true
            · rw [if_pos hp]
              unfold upd
              by_cases hcc : c = st.fifo - 1
              · have hcc' : st.fifo = c + 1 := by omega
                have e1 : pos' c = pos c + 1 := if_pos ⟨hp, hcc'⟩
                have e2 : len' c = len c - 1 := if_pos ⟨hp, hcc'⟩
                rw [if_pos hcc, hq', e1, e2, hcc, hm]
                rfl
              · have hcc' : ¬ st.fifo = c + 1 := by omega
                rw [if_neg hcc, hf c hc]
                simp [pos', len', hcc']
            · rw [if_neg hp, hf c hc]
              simp [pos', len', hp]) h
          refine ⟨?_, fun c hc => ?_⟩
          · rw [h1, hacc]
            simp only [assemble, h0, if_false, List.append_assoc]
            rfl
          · obtain ⟨h3, h4⟩ := h2 c hc
            by_cases hp : st.pop = true ∧ st.fifo = c + 1
            · have hp2 : popsIn c (st :: r) = popsIn c r + 1 := by
                simp [popsIn, hp.1, hp.2]
              have hlen : len c = m + 1 := by
                have : st.fifo - 1 = c := by omega
                rw [← this]; exact hm
              have e1 : pos' c = pos c + 1 := if_pos hp
              have e2 : len' c = len c - 1 := if_pos hp
              rw [e1, e2] at h4
              rw [e2] at h3
              rw [hp2]
              refine ⟨by omega, ?_⟩
              rw [h4]
              congr 1 <;> omega
            · have hp2 : popsIn c (st :: r) = popsIn c r := by
                unfold popsIn
                rw [List.filter_cons_of_neg]
                simpa using hp
              have e1 : pos' c = pos c := if_neg hp
              have e2 : len' c = len c := if_neg hp
              rw [e1, e2] at h4
              rw [e2] at h3
              rw [hp2]
              exact ⟨h3, h4⟩

theorem ready_channels (cfg : Cfg) (empty : Nat → Bool) :
    ∀ (inst : Inst) b, ready cfg empty inst = .ok b → ∀ st ∈ inst, st.fifo ≤ cfg.numCh := by
  intro inst
  induction inst with
  | nil => intro b _ st h; simp at h
  | cons a r ih =>
    intro b h st hst
    unfold ready at h
    split at h
    · rename_i h0
      rcases List.mem_cons.mp hst with rfl | hm
      · omega
      · exact ih _ h st hm
    · split at h
      · rename_i hlt
        split at h
        · cases h
        · rename_i b' hb'
          rcases List.mem_cons.mp hst with rfl | hm
          · omega
          · exact ih _ hb' st hm
      · cases h

theorem ready_true (cfg : Cfg) (empty : Nat → Bool) :
    ∀ (inst : Inst), ready cfg empty inst = .ok true →
      ∀ st ∈ inst, st.fifo ≠ 0 → empty (st.fifo - 1) = false := by
  intro inst
  induction inst with
  | nil => intro _ st h; simp at h
  | cons a r ih =>
    intro h st hst h0
    unfold ready at h
    split at h
    · rcases List.mem_cons.mp hst with rfl | hm
      · contradiction
      · exact ih h st hm h0
    · split at h
      · split at h
        · cases h
        · rename_i b' hb'
          simp only [Except.ok.injEq, Bool.and_eq_true, Bool.not_eq_true'] at h
          obtain ⟨h1, rfl⟩ := h
          rcases List.mem_cons.mp hst with rfl | hm
          · exact h1
          · exact ih hb' st hm h0
      · cases h

theorem assemble_lt (σ : Nat → Nat → Nat) :
    ∀ (inst : Inst) pos, ∀ x ∈ assemble σ pos inst, x < 2 ^ 16 := by
  intro inst
  induction inst with
  | nil => intro pos x hx; simp [assemble] at hx
  | cons st r ih =>
    intro pos x hx
    simp only [assemble, List.mem_append, List.mem_map] at hx
    rcases hx with ⟨e, -, rfl⟩ | hx
    · split
      · decide
      · exact elem_lt _ _
    · exact ih _ x hx

theorem getD_fillUp (cfg : Cfg) (v : Vec) (e : Nat) :
    ((fillUp cfg v)[e]?).getD 0 = (v[e]?).getD 0 := by
  unfold fillUp
  rw [List.getElem?_append]
  split
  · rfl
  · rename_i h
    rw [List.getElem?_replicate, List.getElem?_eq_none (by omega)]
    split <;> simp

end RadSim.Dlrm
