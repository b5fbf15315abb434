import Verif.Proofs.RingTests
/-
Property theorems C163: the crate's own tests of rings.
-/
namespace Vmap
open Kernel Spec

theorem round_within {unit hint len : Nat} (pos : 0 < hint) (le : hint ≤ unit) (h : IsRoundUp unit hint len) :
    len = unit := by
  obtain ⟨⟨c, rfl⟩, h2, h3⟩ := h
  have h4 := h3 unit ⟨1, by omega⟩ le
  have hc : c ≠ 0 := by rintro rfl; omega
  have : unit * 1 ≤ unit * c := Nat.mul_le_mul_left _ (by omega)
  omega

theorem hints_range {page hint : Nat} (h : hint ∈ Tests.hints page) : 2 * page - 1 ≤ hint ∧ hint ≤ 9 * page + 1 := by
  simp only [Tests.hints, List.mem_flatMap, List.mem_cons, List.not_mem_nil, or_false] at h
  obtain ⟨n, hn, hh⟩ := h
  rcases hn with rfl | rfl | rfl | rfl | rfl | rfl | rfl | rfl <;> omega

theorem lim_32 (t : Target) : 2 ^ 32 ≤ t.lim := by
  rcases t with ⟨w, c⟩; cases w <;> simp [Target.lim, Width.bits]

/-! ### On Unix -/

section
variable {t : Target} {k : Kernel}

/-- C163: the test `size` on any Unix with pages from 4 KiB to 16 MiB, whatever the state of the process
and whatever the system calls do: it panics if the ring cannot be created; otherwise it passes, and nothing is
left of the ring. -/
theorem C163_size (wf : Wf t k) (hp : TestUnit k.page) :
    ∃ k1 res, Ring.make t k 1000 = .ok (k1, res) ∧
      match res with
      | .error _ => Tests.ring t 1000 (Tests.size t k.page) k = .error .panic ∧ SameWorld k k1
      | .ok _ => ∃ k', Tests.ring t 1000 (Tests.size t k.page) k = .ok k' ∧ Cleared t k k' := by
  have hlim := lim_32 t
  obtain ⟨p1, p2⟩ := hp
  obtain ⟨b, hb, hbits⟩ := wf.page
  refine Tests.ring_runs wf (by omega) fun k1 r a cap => ?_
  have hc := round_within (by omega) (by omega) cap
  rw [hb] at hc ⊢
  exact Tests.size_runs a (by omega) hc (by omega)

/-- C163: the test `wrap`. -/
theorem C163_wrap (wf : Wf t k) (hp : TestUnit k.page) :
    ∃ k1 res, Ring.make t k 1000 = .ok (k1, res) ∧
      match res with
      | .error _ => Tests.ring t 1000 (Tests.wrap t) k = .error .panic ∧ SameWorld k k1
      | .ok _ => ∃ k', Tests.ring t 1000 (Tests.wrap t) k = .ok k' ∧ Cleared t k k' := by
  have hlim := lim_32 t
  obtain ⟨p1, p2⟩ := hp
  exact Tests.ring_runs wf (by omega) fun k1 r a cap => Tests.wrap_runs a (by have := cap.2.1; omega)

/-- C163: the test `ring_sizes_vs_page_size`, of 24 rings one after the other, on machines of either byte
order: it passes, and nothing is left of the rings, or it panics because one of them cannot be created. -/
theorem C163_sizes (little : Bool) (wf : Wf t k) (hp : TestUnit k.page) :
    (∃ k', Tests.rings t (Tests.sizes t little) (Tests.hints k.page) k = .ok k' ∧ Cleared t k k') ∨
    (Tests.rings t (Tests.sizes t little) (Tests.hints k.page) k = .error .panic ∧
      ∃ pre hint post k1 k2 e, Tests.hints k.page = pre ++ hint :: post ∧
        Tests.rings t (Tests.sizes t little) pre k = .ok k1 ∧ Cleared t k k1 ∧
        Ring.make t k1 hint = .ok (k2, .error e)) := by
  have hlim := lim_32 t
  obtain ⟨p1, p2⟩ := hp
  refine Tests.rings_run _ wf rfl (fun x hx => ?_) (fun x hx k1 r a cap => ?_)
  · have := hints_range hx; omega
  · have := hints_range hx
    exact Tests.sizes_runs little a (by have := cap.2.1; omega)

/-- C163: the test `overwrite`. -/
theorem C163_overwrite (wf : Wf t k) (hp : TestUnit k.page) :
    ∃ k1 res, InfiniteRing.make t k 1000 = .ok (k1, res) ∧
      match res with
      | .error _ => Tests.infinite t 1000 (Tests.overwrite t) k = .error .panic ∧ SameWorld k k1
      | .ok _ => ∃ k', Tests.infinite t 1000 (Tests.overwrite t) k = .ok k' ∧ Cleared t k k' := by
  have hlim := lim_32 t
  obtain ⟨p1, p2⟩ := hp
  refine Tests.infinite_runs wf (by omega) fun k1 r a cap => ?_
  have hc := round_within (by omega) (by omega) cap
  exact Tests.overwrite_runs a (by omega) (by omega)

/-- C163: the test `test_bytes_sanity`. -/
theorem C163_bytes (wf : Wf t k) (hp : TestUnit k.page) :
    ∃ k1 res, Ring.make t k k.page = .ok (k1, res) ∧
      match res with
      | .error _ => Tests.ring t k.page (Tests.bytesSanity t k.page) k = .error .panic ∧ SameWorld k k1
      | .ok _ => ∃ k', Tests.ring t k.page (Tests.bytesSanity t k.page) k = .ok k' ∧ Cleared t k k' := by
  have hlim := lim_32 t
  obtain ⟨p1, p2⟩ := hp
  refine Tests.ring_runs wf (by omega) fun k1 r a cap => ?_
  have hc := round_within (by omega) (Nat.le_refl _) cap
  rw [← hc]
  exact Tests.sanity_runs a (by omega)

end

/-! ### On Windows -/

section
variable {t : Target} {s : Vmap.Win} {mem : Vmap.Win → Kernel}

/-- C163: the test `size` on Windows. -/
theorem C163_windows_size (wf : WinWf t s) (laid : WinLaid t s) (hm : WinMemory t mem) (hp : TestUnit s.gran) :
    ∃ s1 res, s.ringNew t 1000 = .ok (s1, res) ∧
      match res with
      | .error _ => Tests.winRing t 1000 (Tests.size t s.gran) mem s = .error .panic ∧ WinGone s s1
      | .ok _ => ∃ s', Tests.winRing t 1000 (Tests.size t s.gran) mem s = .ok s' ∧ WinGone s s' := by
  have hlim := lim_32 t
  obtain ⟨p1, p2⟩ := hp
  obtain ⟨a, b, -, hb, -, hbits⟩ := wf.sizes
  refine Tests.winRing_runs wf laid hm (by omega) (by omega) fun k1 r a cap => ?_
  have hc := round_within (by omega) (by omega) cap
  rw [hb] at hc ⊢
  exact Tests.size_runs a (by omega) hc (by omega)

/-- C163: the test `wrap` on Windows. -/
theorem C163_windows_wrap (wf : WinWf t s) (laid : WinLaid t s) (hm : WinMemory t mem) (hp : TestUnit s.gran) :
    ∃ s1 res, s.ringNew t 1000 = .ok (s1, res) ∧
      match res with
      | .error _ => Tests.winRing t 1000 (Tests.wrap t) mem s = .error .panic ∧ WinGone s s1
      | .ok _ => ∃ s', Tests.winRing t 1000 (Tests.wrap t) mem s = .ok s' ∧ WinGone s s' := by
  have hlim := lim_32 t
  obtain ⟨p1, p2⟩ := hp
  exact Tests.winRing_runs wf laid hm (by omega) (by omega) fun k1 r a cap =>
    Tests.wrap_runs a (by have := cap.2.1; omega)

/-- C163: the test `ring_sizes_vs_page_size` on Windows. -/
theorem C163_windows_sizes (little : Bool) (wf : WinWf t s) (laid : WinLaid t s) (hm : WinMemory t mem)
    (hp : TestUnit s.page) (hg : TestUnit s.gran) :
    (∃ s', Tests.winRings t (Tests.sizes t little) mem (Tests.hints s.page) s = .ok s' ∧ WinGone s s') ∨
    (Tests.winRings t (Tests.sizes t little) mem (Tests.hints s.page) s = .error .panic ∧
      ∃ pre hint post s1 s2 e, Tests.hints s.page = pre ++ hint :: post ∧
        Tests.winRings t (Tests.sizes t little) mem pre s = .ok s1 ∧ WinGone s s1 ∧
        s1.ringNew t hint = .ok (s2, .error e)) := by
  have hlim := lim_32 t
  obtain ⟨p1, p2⟩ := hp
  obtain ⟨g1, g2⟩ := hg
  refine Tests.winRings_run hm _ wf laid rfl (fun x hx => ?_) (fun x hx k1 r a cap => ?_)
  · have := hints_range hx; omega
  · have := hints_range hx
    exact Tests.sizes_runs little a (by have := cap.2.1; omega)

/-- C163: the test `overwrite` on Windows. -/
theorem C163_windows_overwrite (wf : WinWf t s) (laid : WinLaid t s) (hm : WinMemory t mem) (hp : TestUnit s.gran) :
    ∃ s1 res, s.infNew t 1000 = .ok (s1, res) ∧
      match res with
      | .error _ => Tests.winInfinite t 1000 (Tests.overwrite t) mem s = .error .panic ∧ WinGone s s1
      | .ok _ => ∃ s', Tests.winInfinite t 1000 (Tests.overwrite t) mem s = .ok s' ∧ WinGone s s' := by
  have hlim := lim_32 t
  obtain ⟨p1, p2⟩ := hp
  refine Tests.winInfinite_runs wf laid hm (by omega) (by omega) fun k1 r a cap => ?_
  have hc := round_within (by omega) (by omega) cap
  exact Tests.overwrite_runs a (by omega) (by omega)

/-- C163: the test `test_bytes_sanity` on Windows.  The full statement is that of the other tests: it passes
whenever the ring can be created.  Missing: allocation granularities larger than a page, for which it is false
(`C163_windows_bytes_false`). -/
theorem C163_windows_bytes_partial (wf : WinWf t s) (laid : WinLaid t s) (hm : WinMemory t mem)
    (hp : TestUnit s.page) (same : s.gran = s.page) :
    ∃ s1 res, s.ringNew t s.page = .ok (s1, res) ∧
      match res with
      | .error _ => Tests.winRing t s.page (Tests.bytesSanity t s.page) mem s = .error .panic ∧ WinGone s s1
      | .ok _ => ∃ s', Tests.winRing t s.page (Tests.bytesSanity t s.page) mem s = .ok s' ∧ WinGone s s' := by
  have hlim := lim_32 t
  obtain ⟨p1, p2⟩ := hp
  refine Tests.winRing_runs wf laid hm (by omega) (by omega) fun k1 r a cap => ?_
  rw [same] at cap
  have hc := round_within (by omega) (Nat.le_refl _) cap
  rw [← hc]
  exact Tests.sanity_runs a (by omega)

/-- C163, negated for `test_bytes_sanity`: on every Windows whose allocation granularity is larger than a page
— it is 64 KiB, and pages are 4 KiB — the test panics, whether or not the ring can be created: it takes the
ring's capacity for `page_size()`. -/
theorem C163_windows_bytes_false (wf : WinWf t s) (laid : WinLaid t s) (hm : WinMemory t mem)
    (hg : TestUnit s.gran) (larger : s.page < s.gran) :
    Tests.winRing t s.page (Tests.bytesSanity t s.page) mem s = .error .panic := by
  have hlim := lim_32 t
  obtain ⟨p1, p2⟩ := hg
  obtain ⟨a, b, ha, hb, -, hbits⟩ := wf.sizes
  have hpos : 0 < s.page := by rw [ha]; exact Nat.two_pow_pos a
  obtain ⟨s1, res, e1, -, good⟩ := winRing_new wf laid hpos (by omega) hm
  cases res with
  | error e => simp only [Tests.winRing, e1, bind, Except.bind]
  | ok r =>
    obtain ⟨-, -, a1, -, cap, -⟩ := good r rfl
    have hc := round_within hpos (by omega) cap
    simp only [Tests.winRing, e1, bind, Except.bind, Tests.sanity_panics a1 (m := s.page) (by omega)]

end

-- Unix with 4 KiB pages; the rings can be created
example : Wf ⟨.w64, true⟩ (bigPages 12) ∧ TestUnit (bigPages 12).page ∧
    (∃ k r, Ring.make ⟨.w64, true⟩ (bigPages 12) 1000 = .ok (k, .ok r)) ∧
    (∃ k r, InfiniteRing.make ⟨.w64, true⟩ (bigPages 12) 1000 = .ok (k, .ok r)) ∧
    ∃ k r, Ring.make ⟨.w64, true⟩ (bigPages 12) (bigPages 12).page = .ok (k, .ok r) :=
  ⟨bigPages_wf (by simp [Width.bits]), ⟨by decide +kernel, by decide +kernel⟩, ⟨_, _, rfl⟩, ⟨_, _, rfl⟩, ⟨_, _, rfl⟩⟩

-- the sizes of the 24 rings
example : (Tests.hints 4096).length = 24 ∧ (Tests.hints 4096).take 4 = [36863, 36864, 36865, 32767] := ⟨rfl, rfl⟩

-- a process on Windows in which the ring of `test_bytes_sanity` can be created, and a memory for it
example : ∃ mem, WinWf ⟨.w64, true⟩ (winDemo []) ∧ WinLaid ⟨.w64, true⟩ (winDemo []) ∧
    WinMemory ⟨.w64, true⟩ mem ∧ TestUnit (winDemo []).gran ∧ TestUnit (winDemo []).page ∧
    (winDemo []).page < (winDemo []).gran ∧
    ((winDemo []).ringNew ⟨.w64, true⟩ (winDemo []).page).map (·.2) = .ok (.ok ⟨68157440, 65536, 0, 0⟩) := by
  obtain ⟨mem, hm⟩ := winMemory_exists ⟨.w64, true⟩
  refine ⟨mem, winDemo_wf [], winDemo_laid [], hm, ⟨?_, ?_⟩, ⟨?_, ?_⟩, ?_, ?_⟩ <;> decide +kernel

-- so the test panics there
example : ∃ mem, WinMemory ⟨.w64, true⟩ mem ∧
    Tests.winRing ⟨.w64, true⟩ 4096 (Tests.bytesSanity ⟨.w64, true⟩ 4096) mem (winDemo []) = .error .panic := by
  obtain ⟨mem, hm⟩ := winMemory_exists ⟨.w64, true⟩
  exact ⟨mem, hm, C163_windows_bytes_false (winDemo_wf []) (winDemo_laid []) hm
    ⟨by decide +kernel, by decide +kernel⟩ (by decide +kernel)⟩

-- a process in which pages are as large as the granularity
example : ∃ s, WinWf ⟨.w64, true⟩ s ∧ WinLaid ⟨.w64, true⟩ s ∧ TestUnit s.page ∧ s.gran = s.page :=
  ⟨{ winDemo [] with gran := 4096 },
    ⟨⟨12, 12, rfl, rfl, by decide, by decide⟩, fun _ h => (nomatch h), fun _ h => (nomatch h),
      fun _ _ h => (nomatch h)⟩,
    ⟨⟨12, 12, rfl, rfl, by decide, by decide⟩, fun _ h => (nomatch h), .nil⟩,
    ⟨by decide +kernel, by decide +kernel⟩, rfl⟩

end Vmap
