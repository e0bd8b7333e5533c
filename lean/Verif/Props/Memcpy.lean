import Verif.Lemmas.Memcpy

/-!
# C47: non-temporal memcpy is memcpy
-/

namespace Spead2
open Spec

/-- C47 (x86). For every destination, source and size, the SSE2, AVX and AVX-512 versions end without reading outside the source, writing outside the destination
or storing a vector to an address that is not aligned; the destination then has the bytes of the source, nothing else has changed, and no non-temporal
store is left unfenced. -/
theorem C47_x86 (b : CpArgs) (hv : CpValid b) (s : CpState) :
    (∃ s', memcpySse2 b s = some s' ∧ Copied b s.mem s'.mem ∧ s'.weak = false) ∧
    (∃ s', memcpyAvx b s = some s' ∧ Copied b s.mem s'.mem ∧ s'.weak = false) ∧
    (∃ s', memcpyAvx512 b s = some s' ∧ Copied b s.mem s'.mem ∧ s'.weak = false) := by
  refine ⟨?_, ?_, ?_⟩
  · obtain ⟨s', h1, h2, h3⟩ := cp_x86 hv 16 (cacheLine / 16) 16 (by decide) (by decide) (by decide) (by decide) (by decide) s
    exact ⟨s', h1, h2.copied, h3⟩
  · obtain ⟨s', h1, h2, h3⟩ := cp_x86 hv 8 (cacheLine / 32) 32 (by decide) (by decide) (by decide) (by decide) (by decide) s
    exact ⟨s', h1, h2.copied, h3⟩
  · obtain ⟨s', h1, h2, h3⟩ := cp_x86 hv 8 (cacheLine / 64) 64 (by decide) (by decide) (by decide) (by decide) (by decide) s
    exact ⟨s', h1, h2.copied, h3⟩

/-- C47 (SVE). The same for vectors of any size that SVE allows (16 to 256 bytes), whether or not it is a power of two. There is no fence. -/
theorem C47_sve (vl : Nat) (h0 : 16 ≤ vl) (h1 : vl ≤ 256) (b : CpArgs) (hv : CpValid b) (s : CpState) :
    ∃ s', memcpySve vl b s = some s' ∧ Copied b s.mem s'.mem := by
  obtain ⟨s', h2, h3⟩ := cp_sve hv vl (by omega) (by omega) s
  exact ⟨s', h2, h3.copied⟩

/-! ### Cases that meet the hypotheses -/

def cpDemo : CpArgs := { dest := 1000, src := 5003, n := 700 }

theorem cpDemo_valid : CpValid cpDemo := ⟨by decide, by decide, by decide, by decide⟩

/-- A buffer at the end of the address space, where the rounding up wraps around. -/
theorem cpTop_valid : CpValid { dest := 2 ^ 64 - 5, src := 100, n := 5 } := ⟨by decide, by decide, by decide, by decide⟩

def cpCheck (r : Option CpState) : Option (List Nat × Bool) :=
  r.map (fun s => (([999, 1000, 1023, 1024, 1699, 1700, 5003].map (fun a => (s.mem a).toNat)), s.weak))

def cpMem : CpState := { mem := fun x => UInt8.ofNat (x * 7) }

/-- 24 bytes to the first cache line, two iterations of 256 bytes, two of 64, and 36 bytes. -/
example : cpCheck (memcpySse2 cpDemo cpMem) = some ([81, 205, 110, 117, 234, 124, 205], false) := by decide +kernel
example : cpCheck (memcpySve 48 cpDemo cpMem) = some ([81, 205, 110, 117, 234, 124, 205], true) := by decide +kernel

end Spead2
