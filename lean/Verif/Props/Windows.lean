import Verif.Proofs.Windows
import Verif.Proofs.KernelWf
/-
Property theorems C31 and C80–C83: rings and maps on Windows.
-/
namespace Vmap
open Spec Win

/-! ### C31 -/

/-- C31, numbers: every `usize` is passed as two 32-bit halves that recombine to it. -/
theorem C31_halves (t : Target) {x : Nat} (h : x < t.lim) :
    ∃ hi, hi32 t x = .ok hi ∧ hi < 2 ^ 32 ∧ lo32 x < 2 ^ 32 ∧ hi * 2 ^ 32 + lo32 x = x := by
  have hl := t.lim_le_64
  unfold lim64 at hl
  refine ⟨_, hi32_eq h, by omega, ?_, ?_⟩
  · rw [lo32_eq]; exact Nat.mod_lt _ (by decide)
  · rw [lo32_eq]; exact halves x

example : hi32 ⟨.w64, true⟩ 0x123456789abc = .ok 0x1234 ∧ lo32 0x123456789abc = 0x56789abc := by decide
example : hi32 ⟨.w32, true⟩ 0x56789abc = .ok 0 := by decide

/-- C31: creating a ring never panics and reserves at most six times; on success the ring is there
as described; on failure every address shows what it showed and all six attempts were made
unless reserving itself (or creating the section) failed; either way, the same handles
are open and the same ranges reserved as before.  Unmapping the ring undoes its creation. -/
theorem C31_map_ring (t : Target) {s : Win} (w : WinWf t s) {len : Nat} (hl : 0 < len)
    (hfit : 2 * len < t.lim) :
    ∃ s' r, s.mapRing t len = .ok (s', r) ∧ WinRest s s' ∧ WinWf t s' ∧
      reservations s' ≤ reservations s + 6 ∧
      (∀ pg, r = .ok pg → WinRing t s s' pg len ∧
        ∃ s2, s'.unmapRing t pg len = (s2, .ok ()) ∧ s2.views = s.views ∧ WinRest s s2) ∧
      (∀ e, r = .error e → s'.views = s.views ∧ ∃ code,
        e = Error.lastOsError .ringAllocate code ∨
        (e = Error.lastOsError .ringPrimary code ∨ e = Error.lastOsError .ringSecondary code) ∧
          reservations s' = reservations s + 6) := by
  have hm : mulU t 2 len = .ok (2 * len) := mulU_ok hfit
  simp only [mapRing, hm, bind, Except.bind]
  rcases handleNew_cases (t := t) s .ringAllocate none .readwrite hfit with ⟨e, he⟩ | ⟨size, -, h2, -, he⟩
  · rw [he]
    refine ⟨_, _, rfl, ⟨rfl, rfl, rfl, rfl, rfl, .eq rfl rfl⟩, WinRest.wf w ⟨rfl, rfl, rfl, rfl, rfl, .eq rfl rfl⟩ rfl rfl, ?_,
      fun _ h => (by cases h), ?_⟩
    · show List.countP _ (_ :: s.log) ≤ _
      rw [List.countP_cons_of_neg (by simp)]
      exact Nat.le_add_right _ 6
    · intro e' h'
      injection h' with h'
      exact ⟨rfl, e, .inl h'.symm⟩
  rw [he]
  have hsz := h2 rfl
  subst hsz
  simp only []
  generalize hs1 : ({ s.did (.createFileMapping none .readwrite (2 * len / 2 ^ 32) (2 * len % 2 ^ 32)) with
    handles := fun h => if h = s.next then some ⟨s.next, none, .readwrite, 2 * len⟩ else s.handles h
    next := s.next + 1
    bytes := s.bytes.newSection s.next } : Win) = s1
  have v1 : s1.views = s.views := by rw [← hs1]; rfl
  have n1 : s1.next = s.next + 1 := by rw [← hs1]
  have hh1 : s1.handles = fun h => if h = s.next then some ⟨s.next, none, .readwrite, 2 * len⟩
      else s.handles h := by rw [← hs1]
  have r1 : s1.reserved = s.reserved := by rw [← hs1]; rfl
  have p1 : s1.page = s.page ∧ s1.gran = s.gran ∧ s1.files = s.files := by rw [← hs1]; exact ⟨rfl, rfl, rfl⟩
  have b1 : WinSame s s1 := by rw [← hs1]; exact .section rfl rfl
  have c1 : reservations s1 = reservations s := by
    rw [← hs1]; exact List.countP_cons_of_neg (by simp)
  have hnext : s.handles s.next = none := by
    cases hc : s.handles s.next with
    | none => rfl
    | some sec => exact absurd (w.handles _ _ hc).1 (Nat.lt_irrefl _)
  have w1 : WinWf t s1 := by
    refine ⟨by rw [p1.1, p1.2.1]; exact w.sizes, ?_, by rw [r1]; exact w.reserved, ?_⟩
    · intro v hv
      rw [v1] at hv
      have := w.views v hv
      omega
    · intro h sec hs
      rw [hh1] at hs
      simp only [] at hs
      by_cases hq : h = s.next
      · rw [if_pos hq] at hs
        injection hs with hs
        subst hs
        exact ⟨by omega, by show s.next < _; omega⟩
      · rw [if_neg hq] at hs
        have := w.handles h sec hs
        omega
  obtain ⟨s2, r, g1, g2, g3, g4, g5, g6, g7⟩ := mapRingLoop_cases hl 5 w1
    (by rw [hh1]; exact if_pos rfl)
  rw [g1]
  simp only [pure, Except.pure, dropHandle, closeHandle]
  have hclosed : (fun q => if q = s.next then none else s2.handles q) = s.handles := by
    funext q
    rw [g2.handles, hh1]
    by_cases hq : q = s.next
    · rw [if_pos hq, hq, hnext]
    · rw [if_neg hq]; exact if_neg hq
  have hc2 : ∀ s : Win, ∀ c h, reservations { s.did (.closeHandle c) with handles := h } = reservations s :=
    fun s c h => List.countP_cons_of_neg (by simp)
  have rest : ∀ s3 : Win, s3.handles = s.handles → s3.reserved = s2.reserved → s3.files = s2.files →
      s3.page = s2.page → s3.gran = s2.gran → s3.bytes = s2.bytes → s3.next = s2.next → WinRest s s3 :=
      fun s3 a b c d e f g =>
    ⟨a, b.trans (g2.reserved.trans r1), c.trans (g2.files.trans p1.2.2), d.trans (g2.page.trans p1.1),
      e.trans (g2.gran.trans p1.2.1), (b1.trans g2.bytes).trans (.eq f g)⟩
  refine ⟨_, _, rfl, rest _ hclosed rfl rfl rfl rfl rfl rfl, ?_, by rw [hc2]; omega, ?_, ?_⟩
  · have hv2 : ∀ v, v ∈ s2.views → 0 < v.len ∧ v.sec.id < s2.next := by
      rw [g3, n1]
      intro v hv
      cases r with
      | error e =>
        rw [(g7 e rfl).1, v1] at hv
        have := w.views v hv
        omega
      | ok pg =>
        rw [(g6 pg rfl).2.2.2.1, v1] at hv
        simp only [List.cons_append, List.nil_append, List.mem_cons] at hv
        rcases hv with rfl | rfl | hv
        · exact ⟨hl, Nat.lt_succ_self _⟩
        · exact ⟨hl, Nat.lt_succ_self _⟩
        · have := w.views v hv
          omega
    refine ⟨?_, hv2, ?_, ?_⟩
    · show ∃ a b, s2.page = _ ∧ s2.gran = _ ∧ _
      rw [g2.page, g2.gran, p1.1, p1.2.1]; exact w.sizes
    · show ∀ r, r ∈ s2.reserved → _
      rw [g2.reserved, r1]; exact w.reserved
    · show ∀ h sec, (fun q => if q = s.next then none else s2.handles q) h = some sec → h < s2.next ∧ _ < s2.next
      rw [hclosed, g3, n1]
      intro h sec hs
      have := w.handles h sec hs
      omega
  · intro pg hr
    obtain ⟨k1, k2, k0, k3, k4⟩ := g6 pg hr
    rw [v1] at k3 k4
    generalize hs3 : ({ s2.did (.closeHandle s.next) with
      handles := fun q => if q = s.next then none else s2.handles q } : Win) = s3
    have v3 : s3.views = ⟨pg + len, len, ⟨s.next, none, .readwrite, 2 * len⟩, 0, { read := true, write := true }⟩ ::
        ⟨pg, len, ⟨s.next, none, .readwrite, 2 * len⟩, 0, { read := true, write := true }⟩ :: s.views := by
      rw [← hs3]; exact k3
    have hrest3 : WinRest s s3 := by rw [← hs3]; exact rest _ hclosed rfl rfl rfl rfl rfl rfl
    refine ⟨⟨⟨k1, k2⟩, ⟨s.next, Nat.le_refl _, ?_⟩, ?_, ⟨_, _, v3, rfl, rfl, rfl, rfl, rfl, rfl, rfl, rfl, rfl, rfl⟩,
      by rw [← p1.2.1]; exact k0⟩, ?_⟩
    · intro i hi
      constructor
      · apply shows_none
        intro v hv
        have := k4 v hv
        omega
      · by_cases hil : i < len
        · rw [shows_cons_ne (s := { s3 with views := _ }) v3 (by simp only []; omega), shows_cons rfl
            (by simp only []; omega), Nat.mod_eq_of_lt hil]
          simp only [Option.some.injEq, Prod.mk.injEq, true_and]
          omega
        · rw [shows_cons v3 (by simp only []; omega), Nat.mod_eq_sub_mod (by omega),
            Nat.mod_eq_of_lt (by omega)]
          simp only [Option.some.injEq, Prod.mk.injEq, true_and]
          omega
    · intro a ha
      rw [shows_cons_ne (s := { s3 with views := _ }) v3 (by simp only []; omega),
        shows_cons_ne (s := s) rfl (by simp only []; omega)]
    · have b1 := unmap_last v3 (by
        intro x hx
        show x.base ≠ pg + len
        rcases List.mem_cons.mp hx with rfl | hx
        · show pg ≠ pg + len; omega
        · have := k4 x hx
          have := (w.views x hx).1
          omega)
      have b2 := unmap_last (s := { s3.did (.unmapViewOfFile (pg + len)) with
          views := ⟨pg, len, ⟨s.next, none, .readwrite, 2 * len⟩, 0, { read := true, write := true }⟩ :: s.views
          locked := fun q => s3.locked q && !WinView.onPage s3.page ⟨pg + len, len,
            ⟨s.next, none, .readwrite, 2 * len⟩, 0, { read := true, write := true }⟩ q })
        (v := ⟨pg, len, ⟨s.next, none, .readwrite, 2 * len⟩, 0, { read := true, write := true }⟩) rfl (by
        intro x hx
        show x.base ≠ pg
        have := k4 x hx
        have := (w.views x hx).1
        omega)
      simp only [unmapRing, ptrAdd_ok (show pg + len < t.lim by omega)]
      simp only [] at b1 b2
      rw [b1]
      simp only []
      rw [b2]
      exact ⟨_, rfl, rfl, hrest3.1, hrest3.2, hrest3.3, hrest3.4, hrest3.5,
        hrest3.6.trans (.eq rfl rfl)⟩
  · intro e hr
    obtain ⟨k1, code, k2⟩ := g7 e hr
    refine ⟨k1.trans v1, code, k2.imp_right fun h => ⟨h.1, ?_⟩⟩
    rw [hc2, h.2, c1]

/-- An example process: 4 KiB pages, 64 KiB granularity, one open file of 100 000 bytes; Windows
says yes unless the number of the call is in `bad`, and picks 64 MiB plus one MiB per call. -/
def winDemo (bad : List Nat) : Win where
  page := 4096
  gran := 65536
  files := fun f => if f = 7 then some 100000 else none
  views := []
  reserved := []
  handles := fun _ => none
  next := 1
  tick := 0
  oracle := fun n => ⟨!bad.contains n, 5, 67108864 + n * 1048576⟩
  log := []
  bytes := ⟨fun f i => UInt8.ofNat (f + i % 251), fun _ _ => 1, fun _ _ => some 2⟩
  locked := fun _ => false

theorem winDemo_wf (bad : List Nat) : WinWf ⟨.w64, true⟩ (winDemo bad) :=
  ⟨⟨12, 16, rfl, rfl, by decide, by decide⟩, fun _ h => (nomatch h), fun _ h => (nomatch h), fun _ _ h => (nomatch h)⟩

/-- Non-vacuity: the first attempt loses the race for the second half, the second one succeeds. -/
example : ((winDemo [4]).mapRing ⟨.w64, true⟩ 65536).map (fun x => (x.2, x.1.views.map (·.base), reservations x.1)) =
    .ok (.ok 73400320, [73465856, 73400320], 2) := by decide +kernel

/-- Non-vacuity: all six attempts fail. -/
example : ((winDemo [3, 6, 9, 12, 15, 18]).mapRing ⟨.w64, true⟩ 65536).map
    (fun x => (x.2, x.1.views.length, reservations x.1)) =
    .ok (.error (Error.lastOsError .ringPrimary 5), 0, 6) := by decide +kernel

/-- C31: if Windows grants what is asked, a ring of a whole number of granules is created at
the first attempt. -/
theorem C31_succeeds (t : Target) {s : Win} (w : WinWf t s) {len addr : Nat} (hl : 0 < len)
    (hfit : addr + 2 * len < t.lim) (hg : s.gran ∣ len) (ha : addr ≠ 0) (hag : s.gran ∣ addr)
    (hfree : ∀ v, v ∈ s.views → addr + 2 * len ≤ v.base ∨ v.base + s.roundPage v.len ≤ addr)
    (hres : ∀ r, r ∈ s.reserved → addr + 2 * len ≤ r.1 ∨ r.1 + s.roundPage r.2 ≤ addr)
    (hok : ∀ n, (s.oracle n).ok = true ∧ (s.oracle n).addr = addr) :
    ∃ s', s.mapRing t len = .ok (s', .ok addr) ∧ reservations s' = reservations s + 1 := by
  have hp := w.page_pos
  have hpl : s.page ∣ len := Nat.dvd_trans w.page_dvd hg
  have r1 : ∀ s' : Win, s'.page = s.page → s'.roundPage len = len := fun s' h =>
    s'.roundPage_dvd (by rw [h]; exact hp) (by rw [h]; exact hpl)
  have r2 : ∀ s' : Win, s'.page = s.page → s'.roundPage (2 * len) = 2 * len := fun s' h =>
    s'.roundPage_dvd (by rw [h]; exact hp) (by rw [h]; exact Nat.dvd_mul_left_of_dvd hpl 2)
  have rv : ∀ s' : Win, s'.page = s.page → ∀ x, s'.roundPage x = s.roundPage x := by
    intro s' h x; simp only [roundPage, h]
  have hm : mulU t 2 len = .ok (2 * len) := mulU_ok (by omega)
  have hlt : 2 * len < t.lim := by omega
  have h0 : 0 < t.lim := t.lim_pos
  have hne : ¬ len = 0 := by omega
  have hmod : addr % s.gran = 0 := Nat.mod_eq_zero_of_dvd hag
  have hmod2 : (addr + len) % s.gran = 0 := Nat.mod_eq_zero_of_dvd (Nat.dvd_add hag hg)
  have f1 : ∀ s1 : Win, s1.page = s.page → s1.views = s.views → s1.reserved = s.reserved → ∀ n x,
      addr ≤ x → x + s1.roundPage n ≤ addr + 2 * len → s1.free x n = true := by
    intro s1 hp1 hv1 hr1 n x h1 h2
    rw [free, Bool.and_eq_true, List.all_eq_true, List.all_eq_true, hv1, hr1]
    constructor
    · intro v hv
      have := hfree v hv
      rw [rv s1 hp1 v.len]
      exact decide_eq_true (by omega)
    · intro r hr
      have := hres r hr
      rw [rv s1 hp1 r.2]
      exact decide_eq_true (by omega)
  have n1 : ∃ s1, s.handleNew t .ringAllocate none .readwrite (2 * len) = .ok (s1, .ok s.next) ∧ WinRest s
      { s1 with handles := s.handles } ∧ s1.oracle = s.oracle ∧ s1.views = s.views ∧
      reservations s1 = reservations s ∧ s1.handles s.next = some ⟨s.next, none, .readwrite, 2 * len⟩ := by
    simp only [handleNew, hi32_eq hlt, bind, Except.bind, createFileMapping, lo32_eq, halves, sectionSize, choice]
    rw [if_pos ⟨(hok _).1, by omega⟩]
    exact ⟨_, rfl, ⟨rfl, rfl, rfl, rfl, rfl, .section rfl rfl⟩, rfl, rfl, List.countP_cons_of_neg (by simp), if_pos rfl⟩
  obtain ⟨s1, e1, ⟨-, d1, -, p1, g1, -⟩, o1, v1, c1, hh1⟩ := n1
  simp only [] at d1 p1 g1
  have n2 : ∃ s2, s1.reserve t (2 * len) = (s2, .ok addr) ∧ s2.reserved = s.reserved ∧ s2.oracle = s.oracle ∧
      s2.views = s.views ∧ s2.page = s.page ∧ s2.gran = s.gran ∧ reservations s2 = reservations s + 1 ∧
      s2.handles = s1.handles := by
    simp only [reserve, virtualAlloc, choice, o1, (hok _).2]
    rw [if_pos ⟨(hok _).1, ha, by rw [g1]; exact hmod, by rw [r2 s1 p1]; exact hfit,
      f1 s1 p1 v1 d1 _ _ (Nat.le_refl _) (by rw [r2 s1 p1]; exact Nat.le_refl _)⟩]
    refine ⟨_, rfl, ?_, o1, v1, p1, g1, ?_, rfl⟩
    · simp only [virtualFree]
      rw [List.filter_cons, if_neg (by simp), d1, List.filter_eq_self]
      intro r hr
      have h1 := hres r hr
      have := s.roundPage_le hp r.2
      have := w.reserved r hr
      exact decide_eq_true (by omega)
    · rw [← c1]
      exact (List.countP_cons_of_neg (by simp)).trans (List.countP_cons_of_pos (by rfl))
  obtain ⟨s2, e2, d2, o2, v2, p2, g2, c2, hh2⟩ := n2
  have vw : ∀ (u : Win) (op : Operation) (base : Nat), u.handles s.next = some ⟨s.next, none, .readwrite, 2 * len⟩ →
      u.oracle = s.oracle → u.page = s.page → u.gran = s.gran → base ≠ 0 → base % s.gran = 0 → base + len < t.lim →
      u.free base len = true → ∃ u', u.view t s.next op { read := true, write := true } 0 len base = .ok (u', .ok base) ∧
        u'.views = ⟨base, len, ⟨s.next, none, .readwrite, 2 * len⟩, 0, { read := true, write := true }⟩ :: u.views ∧
        u'.handles = u.handles ∧ u'.oracle = u.oracle ∧ u'.page = u.page ∧ u'.gran = u.gran ∧
        u'.reserved = u.reserved ∧ reservations u' = reservations u := by
    intro u op base h1 h2 h3 h4 h5 h6 h7 h8
    simp only [view, hi32_eq h0, bind, Except.bind, mapViewOfFileEx, h1, choice, h2, if_neg hne, if_neg h5, lo32_eq, halves]
    rw [if_pos ⟨(hok _).1, by simp, hne, by omega, h5, by rw [h4]; exact h6, by rw [r1 u h3]; exact h7, h8, by decide⟩]
    exact ⟨_, rfl, rfl, rfl, h2.symm ▸ h2, rfl, rfl, rfl, List.countP_cons_of_neg (by simp)⟩
  obtain ⟨s3, e3, v3, hh3, o3, p3, g3, d3, c3⟩ := vw s2 .ringPrimary addr (by rw [hh2]; exact hh1) o2 p2 g2 ha hmod
    (by omega) (f1 s2 p2 v2 d2 _ _ (Nat.le_refl _) (by rw [r1 s2 p2]; omega))
  have hf3 : s3.free (addr + len) len = true := by
    have p3' := p3.trans p2
    rw [free, Bool.and_eq_true, List.all_eq_true, List.all_eq_true, v3, d3, d2, v2]
    constructor
    · intro v hv
      rcases List.mem_cons.mp hv with rfl | hv
      · exact decide_eq_true (by rw [r1 s3 p3']; exact .inr (Nat.le_refl _))
      · have := hfree v hv
        rw [rv s3 p3' v.len, r1 s3 p3']
        exact decide_eq_true (by omega)
    · intro r hr
      have := hres r hr
      rw [rv s3 p3' r.2, r1 s3 p3']
      exact decide_eq_true (by omega)
  obtain ⟨s4, e4, -, -, -, -, -, -, c4⟩ := vw s3 .ringSecondary (addr + len) (by rw [hh3, hh2]; exact hh1)
    (o3.trans o2) (p3.trans p2) (g3.trans g2) (by omega) hmod2 (by omega) hf3
  refine ⟨s4.dropHandle s.next, ?_, ?_⟩
  · have hh : s2.mapRingHandle t s.next len addr = .ok (s4, .ok addr) := by
      simp only [mapRingHandle, bind, Except.bind, e3, ptrAdd_ok (show addr + len < t.lim by omega), e4]
      rfl
    have hlp : mapRingLoop t 5 s1 s.next len (2 * len) = .ok (s4, .ok addr) := by
      rw [mapRingLoop, e2]
      simp only [bind, Except.bind, hh]
      rfl
    simp only [mapRing, hm, bind, Except.bind, e1, hlp]
    rfl
  · rw [← c2, ← c3, ← c4]
    exact List.countP_cons_of_neg (by simp)

/-- Non-vacuity: a process that always says yes and offers 64 MiB. -/
example : ∃ s', ({ winDemo [] with oracle := fun _ => ⟨true, 0, 67108864⟩ } : Win).mapRing ⟨.w64, true⟩ 131072 =
    .ok (s', .ok 67108864) ∧ reservations s' = 1 :=
  C31_succeeds ⟨.w64, true⟩ (s := { winDemo [] with oracle := fun _ => ⟨true, 0, 67108864⟩ }) (len := 131072) (addr := 67108864)
    ⟨⟨12, 16, rfl, rfl, by decide, by decide⟩, fun _ h => (nomatch h), fun _ h => (nomatch h), fun _ _ h => (nomatch h)⟩
    (by decide) (by decide) ⟨2, rfl⟩ (by decide) ⟨1024, rfl⟩ (fun _ h => (nomatch h)) (fun _ h => (nomatch h))
    (fun _ => ⟨rfl, rfl⟩)

/-! ### C80 -/

/-- C80 on Windows, in full: `os::unmap` returns Ok exactly when it unmapped something. -/
def C80_windows_full : Prop :=
  ∀ (s s' : Win) (pg len : Nat) (r : Result Unit), s.unmap pg len = (s', r) →
    (r = .ok () → ∃ v, v ∈ s.views ∧ v.base = pg ∧ v ∉ s'.views) ∧
    (∀ e, r = .error e → s'.views = s.views)

/-- C80 on Windows: what is true is the opposite.  The view at the address, if there is one, is
removed, and this is reported as an error; if there is none, nothing happens, and this is
reported as success. -/
theorem C80_windows_inverted (s : Win) (pg len : Nat) :
    ((∃ v, v ∈ s.views ∧ v.base = pg) → ∃ s' e, s.unmap pg len = (s', .error e) ∧
      ∀ v, v ∈ s'.views ↔ v ∈ s.views ∧ v.base ≠ pg) ∧
    ((¬ ∃ v, v ∈ s.views ∧ v.base = pg) → ∃ s', s.unmap pg len = (s', .ok ()) ∧ s'.views = s.views) := by
  constructor
  · rintro ⟨v, hv, hb⟩
    simp only [unmap, unmapViewOfFile]
    rw [if_pos (List.any_eq_true.mpr ⟨v, hv, decide_eq_true hb⟩)]
    refine ⟨_, _, rfl, fun v => ?_⟩
    simp only [List.mem_filter, decide_eq_true_eq]
  · intro h
    rw [unmap, unmap_none (fun x hx hb => h ⟨x, hx, hb⟩)]
    exact ⟨_, rfl, rfl⟩

theorem C80_windows_false : ¬ C80_windows_full := by
  intro h
  obtain ⟨s', h1, h2⟩ := (C80_windows_inverted (winDemo []) 0 0).2 (fun ⟨v, hv, _⟩ => nomatch hv)
  obtain ⟨v, hv, -⟩ := (h _ _ _ _ _ h1).1 rfl
  cases hv

/-- C80 on unix: `os::unmap` returns Ok exactly if the address is that of a page and the length is
not zero, and then the pages of the range, and no others, are unmapped; otherwise nothing is
unmapped.  (Missing: Windows, where it is false.) -/
theorem C80_unix_partial (k : Kernel) (pg len : Nat) :
    ∃ k' r, Unix.unmap k pg len = (k', r) ∧ (r = .ok () ↔ len ≠ 0 ∧ pg % k.page = 0) ∧
      (r = .ok () → ∀ q, (pg / k.page ≤ q ∧ q < pg / k.page + (len + k.page - 1) / k.page → k'.pt q = none) ∧
        (¬ (pg / k.page ≤ q ∧ q < pg / k.page + (len + k.page - 1) / k.page) → k'.pt q = k.pt q)) ∧
      (∀ e, r = .error e → k'.pt = k.pt ∧ e = Error.lastOsError .unmap EINVAL) := by
  by_cases h : len ≠ 0 ∧ pg % k.page = 0
  · refine ⟨_, _, by rw [Unix.unmap, Kernel.munmap_eq h.1 h.2]; rfl, ⟨fun _ => h, fun _ => rfl⟩, ?_,
      fun _ h => (by cases h)⟩
    intro _ q
    exact ⟨fun hq => if_pos hq, fun hq => if_neg hq⟩
  · have hc : (decide (len = 0) || pg % k.tock.page != 0) = true := by
      simp only [Bool.or_eq_true, decide_eq_true_eq, bne_iff_ne]
      show len = 0 ∨ pg % k.page ≠ 0
      by_cases h0 : len = 0
      · exact .inl h0
      · exact .inr fun h1 => h ⟨h0, h1⟩
    have he : Unix.unmap k pg len = ({ k with tick := k.tick + 1, log := ⟨.munmap pg len, .error EINVAL⟩ :: k.log },
        .error (Error.lastOsError .unmap EINVAL)) := by
      simp only [Unix.unmap, Kernel.munmap, Kernel.record, Kernel.munmapCore]
      rw [if_pos hc]
      rfl
    refine ⟨_, _, he, ⟨fun h => (by cases h), fun h' => absurd h' h⟩, fun h => (by cases h), ?_⟩
    intro e h'
    injection h' with h'
    exact ⟨rfl, h'.symm⟩

/-- Non-vacuity: mapping and unmapping on the example process. -/
example : WinWf ⟨.w64, true⟩ (winDemo []) ∧
    ∃ s', (winDemo []).mapAnon ⟨.w64, true⟩ 4096 .readWrite = .ok (s', .ok 68157440) ∧
    (s'.unmap 68157440 4096).2 = .error (Error.lastOsError .unmap 0) ∧ (s'.unmap 68157440 4096).1.views = [] :=
  ⟨winDemo_wf [], _, rfl, by decide +kernel, by decide +kernel⟩

/-! ### C81 -/

/-- For every kind of access, the section permits the view that is asked for. -/
theorem C81_permits (p : Protect) : permits (mapFileBits p).1 (mapFileBits p).2 = true ∧
    permits (mapAnonBits p).1 (mapAnonBits p).2 = true := by
  cases p <;> decide

/-- C81, files: mapping never panics and leaves no handle open.  A map has the wanted length, shows
the wanted bytes of the file with the wanted access, and dropping it, if it is not empty,
removes what was mapped.  (Missing: dropping empty maps, for which it is false.) -/
theorem C81_map_partial (t : Target) {s : Win} (w : WinWf t s) {o : Options} (hf : Fits t o) {file flen : Nat}
    (hfl : flen < t.lim) :
    ∃ s' r, s.mapStep t o file flen = .ok (s', r) ∧ WinRest s s' ∧ WinWf t s' ∧
      (∀ m, r = .ok (some m) → InRange flen o.offset o.len ∧ m.len = wanted flen o.offset o.len ∧
        (∃ v, WinMap t s s' m (some file) o.offset o.protect v) ∧
        (0 < m.len → ∃ s2, s'.dropMap t m = .ok s2 ∧ s2.views = s.views ∧ WinRest s s2)) ∧
      (r = .ok none → ¬ InRange flen o.offset o.len ∧ s' = s) ∧
      (∀ e, r = .error e → s'.views = s.views ∧ InRange flen o.offset o.len ∧ ∃ code,
        e = Error.lastOsError .mapFileHandle code ∨ e = Error.lastOsError .mapFileView code) := by
  obtain ⟨a, b, hpa, hgb, hab, hbits⟩ := w.sizes
  have hgp := w.gran_pos
  simp only [mapStep]
  by_cases hlt : flen < o.offset
  · rw [if_pos hlt]
    refine ⟨s, _, rfl, ⟨rfl, rfl, rfl, rfl, rfl, .eq rfl rfl⟩, w, fun _ h => (nomatch h), fun _ => ⟨?_, rfl⟩, fun _ h => (nomatch h)⟩
    cases o.len <;> simp only [InRange] <;> omega
  rw [if_neg hlt]
  simp only [subU_ok (show o.offset ≤ flen by omega), bind, Except.bind]
  cases hml : Options.mapLen o.len (flen - o.offset) with
  | none =>
    refine ⟨s, _, rfl, ⟨rfl, rfl, rfl, rfl, rfl, .eq rfl rfl⟩, w, fun _ h => (nomatch h), fun _ => ⟨?_, rfl⟩, fun _ h => (nomatch h)⟩
    cases hl : o.len with
    | endOf => rw [hl] at hml; cases hml
    | max l => rw [hl] at hml; cases hml
    | exact l =>
      rw [hl] at hml
      simp only [Options.mapLen] at hml
      simp only [InRange]
      by_cases hc : l > flen - o.offset
      · omega
      · rw [if_neg hc] at hml; cases hml
    | min l =>
      rw [hl] at hml
      simp only [Options.mapLen] at hml
      simp only [InRange]
      by_cases hc : l > flen - o.offset
      · omega
      · rw [if_neg hc] at hml; cases hml
  | some len =>
    have hlen : InRange flen o.offset o.len ∧ len = wanted flen o.offset o.len ∧ len ≤ flen - o.offset := by
      cases hl : o.len with
      | endOf =>
        rw [hl] at hml; injection hml with hml; subst hml
        exact ⟨show o.offset ≤ flen by omega, rfl, Nat.le_refl _⟩
      | max l =>
        rw [hl] at hml; injection hml with hml; subst hml
        exact ⟨show o.offset ≤ flen by omega, rfl, Nat.min_le_right _ _⟩
      | exact l =>
        rw [hl] at hml
        simp only [Options.mapLen] at hml
        by_cases hc : l > flen - o.offset
        · rw [if_pos hc] at hml; cases hml
        · rw [if_neg hc] at hml; injection hml with hml; subst hml
          exact ⟨show o.offset + l ≤ flen by omega, rfl, by omega⟩
      | min l =>
        rw [hl] at hml
        simp only [Options.mapLen] at hml
        by_cases hc : l > flen - o.offset
        · rw [if_pos hc] at hml; cases hml
        · rw [if_neg hc] at hml; injection hml with hml; subst hml
          exact ⟨show o.offset + l ≤ flen by omega, rfl, by omega⟩
    obtain ⟨hin, hw, hle⟩ := hlen
    have hsz : s.sizeAlloc = Size.withSize (2 ^ b) := by rw [sizeAlloc, systemInfo, ← hgb]
    have hdm := Nat.div_add_mod o.offset s.gran
    rw [Nat.mul_comm] at hdm
    have hmod := Nat.mod_lt o.offset hgp
    have htr : s.sizeAlloc.truncate t o.offset = .ok (o.offset / s.gran * s.gran) := by
      rw [hsz, hgb]; exact truncate_eq (by omega) hf.offset
    have hoff := hf.offset
    have hd : o.offset - o.offset / s.gran * s.gran = o.offset % s.gran := by omega
    simp only [htr, subU_ok (show o.offset / s.gran * s.gran ≤ o.offset by omega), hd,
      addU_ok (show len + o.offset % s.gran < t.lim by omega)]
    obtain ⟨r1, h1⟩ : ∃ r1, s.handleNew t .mapFileHandle (some file) (mapFileBits o.protect).1 0 = .ok r1 := by
      rcases handleNew_cases (t := t) s .mapFileHandle (some file) (mapFileBits o.protect).1 (len := 0) t.lim_pos with
        ⟨_, h⟩ | ⟨_, _, _, _, h⟩ <;> exact ⟨_, h⟩
    obtain ⟨s', r, k1, k2, k3, -, k4, k5⟩ := section_view w .mapFileHandle .mapFileView (some file)
      (mapFileBits o.protect).1 (mapFileBits o.protect).2 (size := 0) (off := o.offset / s.gran * s.gran)
      (len := len + o.offset % s.gran) t.lim_pos (by omega) h1 rfl
    have hmf : s.mapFile t file (o.offset / s.gran * s.gran) (len + o.offset % s.gran) o.protect = .ok (s', r) := by
      simp only [mapFile, bind, Except.bind, h1]
      rcases r1 with ⟨s1, r1 | r1⟩
      · exact k1
      · simp only [] at k1 ⊢
        rcases hq : s1.view t r1 .mapFileView (mapFileBits o.protect).2 (o.offset / s.gran * s.gran)
          (len + o.offset % s.gran) 0 with _ | ⟨_, _⟩ <;> (rw [hq] at k1; exact k1)
    rw [hmf]
    cases r with
    | error e =>
      refine ⟨s', _, rfl, k2, k3, fun _ h => (nomatch h), fun h => (nomatch h), ?_⟩
      intro e' h'
      injection h' with h'
      subst h'
      exact ⟨(k5 e rfl).1, hin, (k5 e rfl).2⟩
    | ok base =>
      obtain ⟨n, sz, j1, j2, -, j3, j4, j5, j6, j7, j8, j9, j10⟩ := k4 base rfl
      have hrn := s.roundPage_le w.page_pos n
      have hn : len + o.offset % s.gran ≤ n := by
        by_cases h0 : 0 < len + o.offset % s.gran
        · rw [j2 h0]; exact Nat.le_refl _
        · omega
      obtain ⟨m1, m2⟩ := made_map w k2 (len := len) (mapFileBits_allows o.protect) hn j1 j6 j7 j8 hmod rfl j9 j10 j4
        (k3.views _ (by rw [j10]; exact List.mem_cons_self)).2
      rw [show o.offset / s.gran * s.gran + o.offset % s.gran = o.offset by omega] at m1
      refine ⟨s', .ok (some ⟨base + o.offset % s.gran, len⟩), ?_, k2, k3, ?_, fun h => (nomatch h), fun _ h => (nomatch h)⟩
      · simp only [MapMut.fromPtr, ptrAdd_ok (show base + o.offset % s.gran < t.lim by omega)]
        rfl
      · intro m hm
        injection hm with hm
        injection hm with hm
        subst hm
        exact ⟨hin, hw, ⟨_, m1⟩, m2⟩

/-- C81, memory: the same for anonymous maps. -/
theorem C81_alloc_partial (t : Target) {s : Win} (w : WinWf t s) {o : Options}
    (hf : WinAllocFits t s.gran (o.offset % s.page) o.len) :
    ∃ s' r, s.alloc t o = .ok (s', r) ∧ WinRest s s' ∧ WinWf t s' ∧
      (∀ m, r = .ok m → AllocLen s.gran (o.offset % s.page) o.len m.len ∧ m.ptr % s.page = o.offset % s.page ∧
        (∃ v, WinMap t s s' m none (o.offset % s.page) o.protect v) ∧
        (0 < m.len → ∃ s2, s'.dropMap t m = .ok s2 ∧ s2.views = s.views ∧ WinRest s s2)) ∧
      (∀ e, r = .error e → s'.views = s.views ∧ ∃ code,
        e = Error.lastOsError .mapAnonymousHandle code ∨ e = Error.lastOsError .mapAnonymousView code) := by
  obtain ⟨a, b, hpa, hgb, hab, hbits⟩ := w.sizes
  have hpp := w.page_pos
  have hgp := w.gran_pos
  have hd := Nat.mod_lt o.offset hpp
  have hpg : s.page ≤ s.gran := Nat.le_of_dvd hgp w.page_dvd
  have hlim : 4 * s.gran ≤ t.lim := by
    rw [hgb]
    have : 2 ^ b * 2 ^ 2 = 2 ^ (b + 2) := (Nat.pow_add 2 b 2).symm
    have h2 : 2 ^ (b + 2) ≤ t.lim := Nat.pow_le_pow_right (by decide) (by omega)
    omega
  have hsp : s.sizePage = Size.withSize (2 ^ a) := by rw [sizePage, systemInfo, ← hpa]
  have hsz : s.sizeAlloc = Size.withSize (2 ^ b) := by rw [sizeAlloc, systemInfo, ← hgb]
  have hoff : s.sizePage.offset t o.offset = .ok (o.offset % s.page) := by rw [hsp, hpa]; exact offset_eq
  have hround : ∀ x, x + s.gran < t.lim → s.sizeAlloc.round t x = .ok ((x + s.gran - 1) / s.gran * s.gran) := by
    intro x hx
    rw [hsz, hgb]
    rw [hgb] at hx
    exact round_eq (by omega) hx
  generalize hD : o.offset % s.page = d at hf hoff hd ⊢
  have hlen : ∃ len, s.allocLen t o.len d = .ok len ∧ AllocLen s.gran d o.len len ∧ d + len < t.lim := by
    cases hl : o.len with
    | endOf =>
      have hr : (d + 1 + s.gran - 1) / s.gran * s.gran = s.gran :=
        IsRoundUp.unique (isRoundUp_div hgp) ⟨Nat.dvd_refl _, by omega, fun m hm h => Nat.le_of_dvd (by omega) hm⟩
      simp only [allocLen, bind, Except.bind, addU_ok (show d + 1 < t.lim by omega), hround _ (show d + 1 + s.gran < t.lim by omega),
        hr, subU_ok (show d ≤ s.gran by omega)]
      exact ⟨_, rfl, ⟨by omega, by omega⟩, by omega⟩
    | exact l => rw [hl] at hf; exact ⟨l, rfl, rfl, hf⟩
    | max l => rw [hl] at hf; exact ⟨l, rfl, rfl, hf⟩
    | min l =>
      rw [hl] at hf
      simp only [WinAllocFits] at hf
      obtain ⟨g1, g2, g3⟩ := isRoundUp_div (u := s.gran) (len := d + l) hgp
      have g4 : (d + l + s.gran - 1) / s.gran * s.gran ≤ d + l + s.gran - 1 := Nat.div_mul_le_self _ _
      simp only [allocLen, bind, Except.bind, addU_ok (show d + l < t.lim by omega), hround _ hf]
      generalize (d + l + s.gran - 1) / s.gran * s.gran = R at g1 g2 g3 g4
      simp only [subU_ok (show d ≤ R by omega)]
      exact ⟨_, rfl, ⟨by omega, by rw [show d + (R - d) = R by omega]; exact g1, by omega⟩, by omega⟩
  obtain ⟨len, hl1, hl2, hl3⟩ := hlen
  simp only [alloc, bind, Except.bind, hoff, hl1, addU_ok hl3]
  obtain ⟨r1, h1⟩ : ∃ r1, s.handleNew t .mapAnonymousHandle none (mapAnonBits o.protect).1 (d + len) = .ok r1 := by
    rcases handleNew_cases (t := t) s .mapAnonymousHandle none (mapAnonBits o.protect).1 hl3 with
      ⟨_, h⟩ | ⟨_, _, _, _, h⟩ <;> exact ⟨_, h⟩
  obtain ⟨s', r, k1, k2, k3, -, k4, k5⟩ := section_view w .mapAnonymousHandle .mapAnonymousView none
    (mapAnonBits o.protect).1 (mapAnonBits o.protect).2 (size := d + len) (off := 0)
    (len := d + len) hl3 t.lim_pos h1 rfl
  have hmf : s.mapAnon t (d + len) o.protect = .ok (s', r) := by
    simp only [mapAnon, bind, Except.bind, h1]
    rcases r1 with ⟨s1, r1 | r1⟩
    · exact k1
    · simp only [] at k1 ⊢
      rcases hq : s1.view t r1 .mapAnonymousView (mapAnonBits o.protect).2 0 (d + len) 0 with _ | ⟨_, _⟩ <;>
        (rw [hq] at k1; exact k1)
  rw [hmf]
  cases r with
  | error e =>
    refine ⟨s', _, rfl, k2, k3, fun _ h => (nomatch h), ?_⟩
    intro e' h'
    injection h' with h'
    subst h'
    exact k5 e rfl
  | ok base =>
    obtain ⟨n, sz, j1, j2, j3, -, j4, j5, j6, j7, j8, j9, j10⟩ := k4 base rfl
    have hrn := s.roundPage_le w.page_pos n
    have hn : len + d ≤ n := by
      by_cases h0 : 0 < d + len
      · rw [j2 h0]; omega
      · omega
    obtain ⟨m1, m2⟩ := made_map w k2 (len := len) (d := d) (mapAnonBits_allows o.protect) hn j1 j6 j7 j8 (by omega) rfl j9 j10 j4
      (k3.views _ (by rw [j10]; exact List.mem_cons_self)).2
    rw [Nat.zero_add] at m1
    refine ⟨s', .ok ⟨base + d, len⟩, ?_, k2, k3, ?_, fun _ h => (nomatch h)⟩
    · simp only [MapMut.fromPtr, ptrAdd_ok (show base + d < t.lim by omega)]
      rfl
    · intro m hm
      injection hm with hm
      subst hm
      refine ⟨hl2, ?_, ⟨_, m1⟩, m2⟩
      have : base % s.page = 0 := Nat.mod_eq_zero_of_dvd
        (Nat.dvd_trans w.page_dvd (Nat.dvd_of_mod_eq_zero j7))
      show (base + d) % s.page = d
      rw [Nat.add_mod, this, Nat.zero_add, Nat.mod_mod, Nat.mod_eq_of_lt hd]

/-- C81 in full: dropping a map just created removes what was mapped. -/
def C81_full : Prop :=
  ∀ (t : Target) (s s' : Win) (o : Options) (file flen : Nat) (m : MapMut), WinWf t s → Fits t o → flen < t.lim →
    s.files file = some flen → s.mapStep t o file flen = .ok (s', .ok (some m)) →
    ∃ s2, s'.dropMap t m = .ok s2 ∧ s2.views = s.views

/-- Every empty map of a file leaves a view behind that nothing removes. -/
theorem C81_empty_leaks (t : Target) {s s' : Win} (w : WinWf t s) {o : Options} (hf : Fits t o) {file flen : Nat}
    (hfl : flen < t.lim) {m : MapMut} (h : s.mapStep t o file flen = .ok (s', .ok (some m))) (hm : m.len = 0) :
    s'.dropMap t m = .ok s' ∧ s'.views.length = s.views.length + 1 := by
  obtain ⟨s1, r, h1, -, -, h2, -⟩ := C81_map_partial t w hf (file := file) hfl
  rw [h] at h1
  injection h1 with h1
  injection h1 with h1 h1'
  subst h1
  obtain ⟨-, -, ⟨v, hv⟩, -⟩ := h2 m h1'.symm
  refine ⟨?_, by rw [hv.views]; rfl⟩
  rw [dropMap, if_neg (by omega)]
  rfl

/-- Non-vacuity: 5 bytes from offset 70000 of the example file; the view starts at 65536. -/
example : ((winDemo []).mapStep ⟨.w64, true⟩ ((Options.new.setOffset 70000).setLen (.exact 5)) 7 100000).map
    (fun x => (x.2, x.1.views.map (fun v => (v.base, v.len, v.off)))) =
    .ok (.ok (some ⟨68161904, 5⟩), [(68157440, 4469, 65536)]) := by decide +kernel

/-- C81 is false: an empty map of the example file leaves a view of the whole file behind. -/
theorem C81_false : ¬ C81_full := by
  intro h
  obtain ⟨s', m, h1, h2⟩ : ∃ s' m, (winDemo []).mapStep ⟨.w64, true⟩ (Options.new.setLen (.exact 0)) 7 100000 =
      .ok (s', .ok (some m)) ∧ m.len = 0 := ⟨_, _, rfl, rfl⟩
  have fits : Fits ⟨.w64, true⟩ (Options.new.setLen (.exact 0)) := ⟨show True from trivial, show (0 : Nat) < _ by decide, by decide⟩
  obtain ⟨a, b⟩ := C81_empty_leaks ⟨.w64, true⟩ (winDemo_wf []) fits (by decide) h1 h2
  obtain ⟨s2, c1, c2⟩ := h _ _ _ _ _ _ _ (winDemo_wf []) fits (by decide) rfl h1
  rw [a] at c1
  injection c1 with c1
  subst c1
  rw [c2] at b
  cases b

/-! ### C82 -/

/-- C82: flushing.  `Async` is Ok exactly if writing the view back succeeded; `Sync` is Ok exactly if
that and then flushing the file's buffers succeeded.  The calls are about exactly the range and
file given, in this order, and nothing else is done. -/
theorem C82_flush (s : Win) (pg file len : Nat) (mode : FlushMode) :
    ∃ s' r, s.flush pg file len mode = (s', r) ∧ s'.views = s.views ∧ WinRest s s' ∧
      (r = .ok () ↔ (s.oracle s.tick).ok = true ∧ (mode = .sync → (s.oracle (s.tick + 1)).ok = true)) ∧
      (∀ e, r = .error e → ∃ code, e = Error.lastOsError .flush code) ∧
      (r = .ok () → mode = .sync → s'.log = .flushFileBuffers file :: .flushViewOfFile pg len :: s.log) ∧
      (r = .ok () → mode = .async → s'.log = .flushViewOfFile pg len :: s.log) := by
  simp only [flush, simple, choice]
  by_cases h1 : (s.oracle s.tick).ok = true
  · simp only [h1, if_true]
    cases mode with
    | async =>
      exact ⟨_, _, rfl, rfl, ⟨rfl, rfl, rfl, rfl, rfl, .eq rfl rfl⟩, ⟨fun _ => ⟨trivial, fun h => (nomatch h)⟩, fun _ => rfl⟩,
        fun _ h => (nomatch h), fun _ h => (nomatch h), fun _ _ => rfl⟩
    | sync =>
      by_cases h2 : (s.oracle (s.tick + 1)).ok = true
      · refine ⟨(s.did (.flushViewOfFile pg len)).did (.flushFileBuffers file), .ok (), ?_, rfl,
          ⟨rfl, rfl, rfl, rfl, rfl, .eq rfl rfl⟩, ⟨fun _ => ⟨trivial, fun _ => h2⟩, fun _ => rfl⟩,
          fun _ h => (nomatch h), fun _ _ => rfl, fun _ h => (nomatch h)⟩
        simp only [did, h2, if_true, wrap]
      · refine ⟨(s.did (.flushViewOfFile pg len)).did (.flushFileBuffers file),
          .error (Error.lastOsError .flush (s.oracle (s.tick + 1)).code), ?_, rfl, ⟨rfl, rfl, rfl, rfl, rfl, .eq rfl rfl⟩,
          ⟨fun h => (nomatch h), fun h => absurd (h.2 rfl) h2⟩, ?_, fun h => (nomatch h), fun h => (nomatch h)⟩
        · simp only [did, h2, wrap]
          rfl
        · intro e h
          injection h with h
          exact ⟨_, h.symm⟩
  · simp only [h1]
    refine ⟨_, _, rfl, rfl, ⟨rfl, rfl, rfl, rfl, rfl, .eq rfl rfl⟩, ⟨fun h => (nomatch h), fun h => (nomatch h.1)⟩, ?_,
      fun h => (nomatch h), fun h => (nomatch h)⟩
    intro e h
    injection h with h
    exact ⟨_, h.symm⟩

/-- C82: protecting: exactly one call, about exactly the range given; Ok exactly if Windows grants it,
which it may only if each page of the range belongs to a view that was mapped with the access asked
for; the error names the operation. -/
theorem C82_protect (s : Win) (pg len : Nat) (prot : Protect) :
    ∃ s' r, s.protect pg len prot = (s', r) ∧
      s'.log = .virtualProtect pg len (match prot with
        | .readOnly => .readonly
        | .readWrite => .readwrite
        | .readCopy => .readwrite
        | .readExec => .executeRead) :: s.log ∧
      s'.views = s.views ∧ s'.locked = s.locked ∧ WinRest s s' ∧
      (r = .ok () ↔ (s.oracle s.tick).ok = true ∧ ∀ x, pg ≤ x → x < pg + len →
        ∃ v, v ∈ s.views ∧ WinPageOf s.page v x ∧ match prot with
          | .readOnly => True
          | .readWrite => v.access.write = true ∨ v.access.copy = true
          | .readCopy => v.access.write = true ∨ v.access.copy = true
          | .readExec => v.access.exec = true) ∧
      (∀ e, r = .error e → e = Error.lastOsError .protect (s.oracle s.tick).code) := by
  have hc : ((s.pagesOf pg len).all (fun q =>
      s.views.any (fun v => v.onPage s.page q && compatible v.access (protectBits prot))) = true) ↔
      ∀ x, pg ≤ x → x < pg + len → ∃ v, v ∈ s.views ∧ WinPageOf s.page v x ∧ match prot with
          | .readOnly => True
          | .readWrite => v.access.write = true ∨ v.access.copy = true
          | .readCopy => v.access.write = true ∨ v.access.copy = true
          | .readExec => v.access.exec = true := by
    rw [all_pagesOf]
    refine forall_congr' fun x => forall_congr' fun _ => forall_congr' fun _ => ?_
    rw [List.any_eq_true]
    refine exists_congr fun v => and_congr_right fun _ => ?_
    rw [Bool.and_eq_true, onPage_iff_of]
    refine and_congr_right fun _ => ?_
    cases prot <;> simp [compatible, protectBits]
  rw [← hc, protect]
  by_cases h : s.choice.ok = true ∧ (s.pagesOf pg len).all (fun q =>
      s.views.any (fun v => v.onPage s.page q && compatible v.access (protectBits prot))) = true
  · rw [show s.virtualProtect pg len (protectBits prot) = (_, .ok ()) from if_pos h]
    exact ⟨_, _, rfl, by cases prot <;> rfl, rfl, rfl, ⟨rfl, rfl, rfl, rfl, rfl, .eq rfl rfl⟩,
      ⟨fun _ => h, fun _ => rfl⟩, fun _ h => (nomatch h)⟩
  · rw [show s.virtualProtect pg len (protectBits prot) = (_, .error s.choice.code) from if_neg h]
    refine ⟨_, _, rfl, by cases prot <;> rfl, rfl, rfl, ⟨rfl, rfl, rfl, rfl, rfl, .eq rfl rfl⟩,
      ⟨fun h => (nomatch h), fun hh => absurd hh h⟩, fun e he => ?_⟩
    injection he with he
    exact he.symm

/-- C82: locking: exactly one call, about exactly the range given; Ok exactly if Windows grants it, which
it may only if each page of the range belongs to a view; then exactly the pages of the range are
locked besides those that were. -/
theorem C82_lock (s : Win) (pg len : Nat) :
    ∃ s' r, s.lock pg len = (s', r) ∧ s'.log = .virtualLock pg len :: s.log ∧
      s'.views = s.views ∧ WinRest s s' ∧
      (r = .ok () ↔ (s.oracle s.tick).ok = true ∧ ∀ x, pg ≤ x → x < pg + len →
        ∃ v, v ∈ s.views ∧ WinPageOf s.page v x) ∧
      (∀ q, s'.locked q = true ↔
        s.locked q = true ∨ r = .ok () ∧ ∃ x, pg ≤ x ∧ x < pg + len ∧ x / s.page = q) ∧
      (∀ e, r = .error e → e = Error.lastOsError .lock (s.oracle s.tick).code) := by
  have hc : ((s.pagesOf pg len).all (fun q => s.views.any (fun v => v.onPage s.page q)) = true) ↔
      ∀ x, pg ≤ x → x < pg + len → ∃ v, v ∈ s.views ∧ WinPageOf s.page v x := by
    rw [all_pagesOf]
    refine forall_congr' fun x => forall_congr' fun _ => forall_congr' fun _ => ?_
    rw [List.any_eq_true]
    exact exists_congr fun v => and_congr_right fun _ => onPage_iff_of
  rw [← hc, lock]
  by_cases h : s.choice.ok = true ∧ (s.pagesOf pg len).all (fun q => s.views.any (fun v => v.onPage s.page q)) = true
  · rw [show s.virtualLock pg len = (_, .ok ()) from if_pos h]
    refine ⟨_, _, rfl, rfl, rfl, ⟨rfl, rfl, rfl, rfl, rfl, .eq rfl rfl⟩,
      ⟨fun _ => h, fun _ => rfl⟩, fun q => ?_, fun _ h => (nomatch h)⟩
    show (s.locked q || (s.pagesOf pg len).contains q) = true ↔ _
    rw [Bool.or_eq_true, List.contains_iff_mem, mem_pagesOf]
    exact or_congr_right ⟨fun h => ⟨rfl, h⟩, fun h => h.2⟩
  · rw [show s.virtualLock pg len = (_, .error s.choice.code) from if_neg h]
    refine ⟨_, _, rfl, rfl, rfl, ⟨rfl, rfl, rfl, rfl, rfl, .eq rfl rfl⟩,
      ⟨fun h => (nomatch h), fun hh => absurd hh h⟩, fun q => ⟨.inl, ?_⟩, fun e he => ?_⟩
    · rintro (h | ⟨h, -⟩)
      · exact h
      · cases h
    · injection he with he
      exact he.symm

/-- C82: unlocking: exactly one call, about exactly the range given; Ok exactly if Windows grants it,
which it may only if each page of the range is locked; then these pages, and no others, are
unlocked. -/
theorem C82_unlock (s : Win) (pg len : Nat) :
    ∃ s' r, s.unlock pg len = (s', r) ∧ s'.log = .virtualUnlock pg len :: s.log ∧
      s'.views = s.views ∧ WinRest s s' ∧
      (r = .ok () ↔ (s.oracle s.tick).ok = true ∧ ∀ x, pg ≤ x → x < pg + len → s.locked (x / s.page) = true) ∧
      (∀ q, s'.locked q = true ↔
        s.locked q = true ∧ ¬ (r = .ok () ∧ ∃ x, pg ≤ x ∧ x < pg + len ∧ x / s.page = q)) ∧
      (∀ e, r = .error e → e = Error.lastOsError .unlock (s.oracle s.tick).code) := by
  have hc : ((s.pagesOf pg len).all s.locked = true) ↔
      ∀ x, pg ≤ x → x < pg + len → s.locked (x / s.page) = true := all_pagesOf
  rw [← hc, unlock]
  by_cases h : s.choice.ok = true ∧ (s.pagesOf pg len).all s.locked = true
  · rw [show s.virtualUnlock pg len = (_, .ok ()) from if_pos h]
    refine ⟨_, _, rfl, rfl, rfl, ⟨rfl, rfl, rfl, rfl, rfl, .eq rfl rfl⟩,
      ⟨fun _ => h, fun _ => rfl⟩, fun q => ?_, fun _ h => (nomatch h)⟩
    show (s.locked q && !(s.pagesOf pg len).contains q) = true ↔ _
    rw [Bool.and_eq_true, Bool.not_eq_true', ← Bool.not_eq_true, List.contains_iff_mem, mem_pagesOf]
    exact and_congr_right fun _ => not_congr ⟨fun h => ⟨rfl, h⟩, fun h => h.2⟩
  · rw [show s.virtualUnlock pg len = (_, .error s.choice.code) from if_neg h]
    refine ⟨_, _, rfl, rfl, rfl, ⟨rfl, rfl, rfl, rfl, rfl, .eq rfl rfl⟩,
      ⟨fun h => (nomatch h), fun hh => absurd hh h⟩, fun q => ⟨fun h => ⟨h, ?_⟩, fun h => h.1⟩, fun e he => ?_⟩
    · rintro ⟨h, -⟩
      cases h
    · injection he with he
      exact he.symm

/-- C82: advice does nothing. -/
theorem C82_advise (s : Win) (pg len : Nat) (adv : Advise) : s.advise pg len adv = (s, .ok ()) := rfl

/-- Non-vacuity: a view of one page for reading only can be locked and unlocked, but not unlocked twice, and
not made writable. -/
def winOneView : Win :=
  { winDemo [] with views := [⟨65536, 4000, ⟨0, some 7, .readonly, 4000⟩, 0, { read := true }⟩] }

example : (winOneView.lock 65600 10).2 = .ok () ∧ (winOneView.lock 65600 10).1.locked 16 = true ∧
    (winOneView.lock 69600 100).2 ≠ .ok () ∧
    ((winOneView.lock 65600 10).1.unlock 65536 4096).2 = .ok () ∧
    (winOneView.unlock 65536 4096).2 ≠ .ok () ∧
    (winOneView.protect 65536 4096 .readOnly).2 = .ok () ∧
    (winOneView.protect 65536 4096 .readWrite).2 ≠ .ok () := by decide +kernel

/-- Non-vacuity: a synced flush whose second call fails. -/
example : ((winDemo [1]).flush 68157440 7 4096 .sync).2 = .error (Error.lastOsError .flush 5) ∧
    ((winDemo [1]).flush 68157440 7 4096 .async).2 = .ok () := by decide +kernel

end Vmap
