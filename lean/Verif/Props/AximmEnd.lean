import Verif.Lemmas.AximmFinish

/-!
# Property C113: `aximm_hello_world` comes to an end

Within a number of periods that can be computed from the length of the trace the driver has been given an answer to every line
of it, and stops the simulation.
-/

namespace RadSim.Hello

open MmNoc
open Net (mesh Allocs Grants slots)

variable {σ τ ρ ρ' : Type} {VA : Alloc.Cls σ ρ} {SA : Alloc.Cls τ ρ'} {d : Params} {rng : Nat → Nat × Nat} {r : Nat → Nat}
  {va : Nat → σ} {sa : Nat → τ} {N n₀ J K : Nat} {t : Nat → Tick ρ ρ'}

/-- C113: if no clock stops then the design comes to an end: after at most `n₀` and
`((5 (n k + 1) + 2) · 24 · length + 1) · (3 K + 262 J + 2 slots + 7)` periods all reads and writes of the trace have been performed and
answered, the values read being those of a memory which performs the writes in the order of the trace and the reads in the order
of the trace. (Partial: the design has the NoC to itself, node clock and adapter clock keep to the ratio, the FIFOs are longer
than the trace, an input buffer and the FIFO of an adapter have room for a packet, the allocators grant something to a request.) -/
theorem C113_comes_to_an_end_partial (hw : Works d rng r) (ha : Allocs VA SA (mesh d.noc.m) d.noc.b va sa) (hp : Paced d r N t)
    (hl : Lively d N n₀ J K t) (hgr : Grants VA SA (mesh d.noc.m) d.noc.b va sa) (ho : d.noc.b.outSize ≠ 0)
    (hsh : 8 ≤ d.noc.b.buf.perVc)
    (hroom : ∀ u, u = d.qNode ∨ u = d.pNode → (d.noc.nc u).mm.maxFlits ≤ (d.noc.nc u).mm.depth)
    (hN : n₀ + ((5 * (d.noc.m.n * d.noc.m.k + 1) + 2) * (24 * d.trace.length) + 1) *
      (3 * K + 262 * J + 2 * slots (mesh d.noc.m) d.noc.b + 7) ≤ N) :
    ∃ n ≤ N, ∃ x : Sys σ τ, sysRun VA SA d va sa t n = .ok x ∧ x.req.got.length = d.trace.length ∧
      (x.noc.ad d.qNode).reqs.map plain = d.trace.flatMap (requests d) ∧ ∃ log : List Cmd,
        log.filter (·.write) = d.trace.filter (·.write) ∧ log.filter (!·.write) = d.trace.filter (!·.write) ∧
        x.req.got.filterMap id = (answers (fun _ => 0) log).filterMap id := by
  obtain ⟨n, hn, hst, hreqs⟩ := ends hw ha hp hl hgr ho hsh hroom hN
  have h := all_of (VA := VA) (SA := SA) hw ha hp n hn
  have hx := h.ok n (le_refl n)
  obtain ⟨log, -, -, -, -, h1⟩ := C112_reads_answered_partial hw ha hp hn hx
  obtain ⟨k1, k2, k3, k4⟩ := h1 hst
  exact ⟨n, hn, _, hx, k1, hreqs, log, k2, k3, k4⟩

namespace Example

open Alloc (islip Islip)

theorem grants (delay : Int) : Grants islip islip (mesh (cfg delay).m) (cfg delay).b (fun _ => Islip.init 15 15 1)
    (fun _ => Islip.init 3 3 1) where
  va := fun _ _ => (Alloc.C68_islip 15 15 1 (by decide)).mono fun _ _ h => h.1
  sa := fun _ _ => (Alloc.C68_islip 3 3 1 (by decide)).mono fun _ _ h => h.1

theorem lively {delay : Nat} (tr : List Cmd) (N : Nat) : Lively (params delay tr) N 0 2 delay tick where
  one := by
    intro k _ u _
    show ([some true] ++ if k % 2 = 0 then [none] else []).countP Option.isSome ≤ 1
    by_cases h : k % 2 = 0 <;> simp [h]
  edge := by
    intro k _ _
    refine ⟨k + k % 2, by omega, by omega, ?_⟩
    show decide ((k + k % 2) % 2 = 0) = true
    exact decide_eq_true (by omega)
  source := fun k _ _ u _ => ⟨k, by omega, by omega, (decide (k % 2 = 0), true), List.mem_cons_self .., rfl⟩
  sink := fun k _ _ u _ => ⟨k, by omega, by omega, true, List.mem_cons_self ..⟩
  time := by
    intro m n h _
    show (m : Int) + delay ≤ n ∧ (m : Int) ≤ n
    omega

/-- A write and a read of the same address: the driver is given both answers within 485298 periods. -/
example : ∃ n ≤ 485298, ∃ x, run 1 two n = .ok x ∧ x.req.got.length = 2 := by
  obtain ⟨n, hn, x, hx, h, -⟩ := C113_comes_to_an_end_partial (works_two 1) (allocs 1) (paced 1 two (N := 485298) (by decide))
    (lively (delay := 1) two 485298) (grants 1) (by decide) (by decide) (fun u _ => show (64 + max (64 + 13) (512 + 2 + 1)) / flitW ≤ 16 by decide) (by decide)
  exact ⟨n, hn, x, hx, h⟩

end Example

end RadSim.Hello
