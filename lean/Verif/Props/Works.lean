import Verif.Proofs.Works
import Verif.Proofs.WorksWin
import Verif.Props.MapMake
import Verif.Props.RingMap
import Verif.Props.Windows
import Verif.Props.WinWorld
import Verif.Props.Mach
import Verif.Props.Platform
/-
Property theorem C133: when the system grants what is asked, the calls succeed.
-/
namespace Vmap
open Kernel Spec

/-! ### Unix -/

/-- A system for the examples: every call succeeds, and maps go to page 1000. -/
private def kind : Kernel := { demo 0 with oracle := fun _ => ⟨true, 0, 1000, false⟩ }

private theorem kind_wf : Wf ⟨.w64, true⟩ kind := (demo_wf 0).same rfl rfl rfl rfl rfl rfl

private theorem kind_willing : Willing ⟨.w64, true⟩ kind 1000 8 :=
  ⟨fun _ _ => rfl, fun _ _ => rfl, fun _ _ _ => rfl, by decide, by decide⟩

/-- Options for the examples: 3000 bytes from `off` on. -/
private def part (off : Nat) : Options := ⟨{ read := true }, .endOf, .exact 3000, off, .readOnly, false⟩

private theorem part_fits {off : Nat} (h : off < 2 ^ 64) : Fits ⟨.w64, true⟩ (part off) :=
  ⟨trivial, by show 3000 < 2 ^ 64; decide, h⟩

/-- Options for the examples: a new file of 6000 bytes. -/
private def create : Options :=
  ⟨{ read := true, write := true, createNew := true }, .exact 6000, .endOf, 0, .readWrite, false⟩

/-- C133, files: `map_if` on a system that fails no call on its own account.  If the range is inside
the file (after truncating and resizing), the result is a map of the wanted length, in the memory
the system offered; otherwise it is `Ok(None)`. -/
theorem C133_map_if (tab : SysTable) {t : Target} {k : Kernel} (w : Wf t k) {p n : Nat}
    (sys : Willing t k p n) {o : Options} (fits : Fits t o) {fd : Nat} {f : Fd}
    (file : k.fds fd = some f) (read : f.canRead = true) (small : k.size f.obj < t.lim)
    (can : Mappable t k.page o f.canWrite (k.size f.obj))
    (room : (wanted (newLen o.truncate o.resize (k.size f.obj)) o.offset o.len + o.offset % k.page +
      k.page - 1) / k.page ≤ n) :
    (InRange (newLen o.truncate o.resize (k.size f.obj)) o.offset o.len → ∃ k',
      o.mapIf tab t k fd = .ok (k', .ok (some ⟨p * k.page + o.offset % k.page,
        wanted (newLen o.truncate o.resize (k.size f.obj)) o.offset o.len⟩))) ∧
    (¬ InRange (newLen o.truncate o.resize (k.size f.obj)) o.offset o.len → ∃ k',
      o.mapIf tab t k fd = .ok (k', .ok none)) := by
  obtain ⟨k1, e1, kept⟩ := mapIf_prep_willing tab sys file small can
  have hfl := newLen_fits fits small
  have w1 : Willing t k1 p n := kept.willing sys
  constructor
  · intro hr
    rw [e1]
    have hpg := kept.page
    have := mapStep_willing (kept.wf w) w1 fits hfl (by rw [kept.fds]; exact file) hr read can.store
      can.offset (by rw [hpg]; exact can.some hr) (by rw [pages_eq, hpg]; exact room)
    rw [hpg] at this
    exact this
  · intro hr
    refine ⟨k1, ?_⟩
    rw [e1]
    simp only [Options.mapStep]
    by_cases ho : newLen o.truncate o.resize (k.size f.obj) < o.offset
    · rw [if_pos ho]; rfl
    · rw [if_neg ho, subU_ok (by omega)]
      simp only [bind, Except.bind, mapLen_none hr (by omega : o.offset ≤ _)]
      rfl

/-- Non-vacuity: 3000 bytes at 5000 of a file of 10000; and `Ok(None)` behind its end. -/
example (tab : SysTable) :
    (∃ k', (part 5000).mapIf tab ⟨.w64, true⟩ kind 3 = .ok (k', .ok (some ⟨4096904, 3000⟩))) ∧
    (∃ k', (part 9000).mapIf tab ⟨.w64, true⟩ kind 3 = .ok (k', .ok none)) :=
  ⟨(C133_map_if tab kind_wf kind_willing (part_fits (by decide)) (f := ⟨0, true, true⟩) rfl rfl (by decide)
      ⟨fun _ => rfl, fun _ => rfl, by decide, by decide, fun _ => by decide⟩ (by decide)).1
      (by show 5000 + 3000 ≤ 10000; decide),
    (C133_map_if tab kind_wf kind_willing (part_fits (by decide)) (f := ⟨0, true, true⟩) rfl rfl (by decide)
      ⟨fun _ => rfl, fun _ => rfl, by decide, by decide, fun _ => by decide⟩ (by decide)).2
      (by show ¬ 9000 + 3000 ≤ 10000; decide)⟩

/-- C133, files by name: `open_if`, of a name that is there (or is created, if the options ask for
that). -/
theorem C133_open_if (tab : SysTable) {t : Target} {k : Kernel} (w : Wf t k) {p n : Nat}
    (sys : Willing t k p n) {o : Options} (fits : Fits t o) {path : String} {old : Nat}
    (there : Openable k o path old) (small : old < t.lim)
    (can : Mappable t k.page o o.openOptions.write old)
    (room : (wanted (newLen o.truncate o.resize old) o.offset o.len + o.offset % k.page +
      k.page - 1) / k.page ≤ n) :
    (InRange (newLen o.truncate o.resize old) o.offset o.len → ∃ k',
      o.openIf tab t k path = .ok (k', .ok (some ⟨p * k.page + o.offset % k.page,
        wanted (newLen o.truncate o.resize old) o.offset o.len⟩, k.nextFd))) ∧
    (¬ InRange (newLen o.truncate o.resize old) o.offset o.len → ∃ k',
      o.openIf tab t k path = .ok (k', .ok (none, k.nextFd))) := by
  obtain ⟨k1, x, e1, w1, hpg, hfd, hsz⟩ := open_willing tab sys there
  have wf1 : Wf t k1 := by
    have := (open_outcome tab k o.openOptions path).wf w
    rwa [e1] at this
  have h := C133_map_if tab wf1 w1 fits hfd rfl (by rw [hsz]; exact small)
    (by rw [hsz, hpg]; exact can) (by rw [hsz, hpg]; exact room)
  simp only [hsz, hpg] at h
  constructor
  · intro hr
    obtain ⟨k', e2⟩ := h.1 hr
    refine ⟨k', ?_⟩
    simp only [Options.openIf, e1, e2, bind, Except.bind]
    rfl
  · intro hr
    obtain ⟨k', e2⟩ := h.2 hr
    refine ⟨k', ?_⟩
    simp only [Options.openIf, e1, e2, bind, Except.bind]
    rfl

/-- Non-vacuity: a new file, made 6000 bytes long. -/
example (tab : SysTable) : ∃ k',
    create.openIf tab ⟨.w64, true⟩ kind "new" = .ok (k', .ok (some ⟨4096000, 6000⟩, 5)) :=
  (C133_open_if tab kind_wf kind_willing (o := create) ⟨by show 6000 < 2 ^ 64; decide, trivial, by decide⟩ (old := 0)
    ⟨fun _ => rfl, .inr ⟨rfl, .inr rfl, rfl⟩⟩ (by decide)
    ⟨fun _ => rfl, fun _ => rfl, by decide, by decide, fun _ => by decide⟩ (by decide)).1
    (by show 0 ≤ 6000; decide)

/-- C133, rings: `Ring::new` with a hint above zero makes an empty ring with room for at least the
hint, in the memory the system offered. -/
theorem C133_ring {t : Target} {k : Kernel} (w : Wf t k) {p n : Nat} (sys : Willing t k p (2 * n))
    {hint : Nat} (pos : 0 < hint) (hn : (hint + k.page - 1) / k.page = n) :
    ∃ k', Ring.new t k hint = .ok (k', .ok ⟨p * k.page, n * k.page, 0, 0⟩) := by
  obtain ⟨s, hs, hs2⟩ := w.page
  have hpp := w.page_pos
  have hup := isRoundUp_div (len := hint) hpp
  rw [hn] at hup
  have hn0 : 0 < n := by
    rcases Nat.eq_zero_or_pos n with h | h
    · rw [h, Nat.zero_mul] at hup; have := hup.2.1; omega
    · exact h
  have htop := sys.top
  have hp := sys.bottom
  have hfit : hint + k.page < t.lim := by
    have h1 := hup.2.1
    have : (p + 2 * n) * k.page = p * k.page + 2 * (n * k.page) := by rw [Nat.add_mul, Nat.mul_assoc]
    have : k.page ≤ p * k.page := Nat.le_mul_of_pos_left _ (by omega)
    omega
  have hr : (Size.withSize k.page).round t hint = .ok (n * k.page) := by
    rw [← hn, hs]
    rw [hs] at hfit
    exact round_eq (by omega) hfit
  obtain ⟨k', e⟩ := Posix.mapRing_willing w sys hn0
  refine ⟨k', ?_⟩
  simp only [Ring.new, Unix.systemInfo, bind, Except.bind, hr, e]
  rfl

/-- Non-vacuity: 10000 bytes become three pages. -/
example : ∃ k', Ring.new ⟨.w64, true⟩ kind 10000 = .ok (k', .ok ⟨4096000, 12288, 0, 0⟩) :=
  C133_ring kind_wf (n := 3) (kind_willing.less (by decide)) (by decide) rfl

/-- C133 for `InfiniteRing::new`. -/
theorem C133_infinite {t : Target} {k : Kernel} (w : Wf t k) {p n : Nat} (sys : Willing t k p (2 * n))
    {hint : Nat} (pos : 0 < hint) (hn : (hint + k.page - 1) / k.page = n) :
    ∃ k', InfiniteRing.new t k hint = .ok (k', .ok ⟨p * k.page, n * k.page, 0, 0⟩) := by
  obtain ⟨k', h⟩ := C133_ring w sys pos hn
  refine ⟨k', ?_⟩
  simp only [Ring.new, InfiniteRing.new, bind, Except.bind] at h ⊢
  cases hl : (Size.withSize (Unix.systemInfo k).2).round t hint with
  | error e => rw [hl] at h; cases h
  | ok len =>
    rw [hl] at h
    simp only at h ⊢
    cases hm : Posix.mapRing t k len with
    | error e => rw [hm] at h; cases h
    | ok kr =>
      obtain ⟨k1, res⟩ := kr
      rw [hm] at h
      cases res with
      | error e => cases h
      | ok ptr => 
        simp only [pure, Except.pure, Except.ok.injEq, Prod.mk.injEq, Ring.mk.injEq] at h
        obtain ⟨rfl, rfl, rfl, -⟩ := h
        rfl

example : ∃ k', InfiniteRing.new ⟨.w64, true⟩ kind 1 = .ok (k', .ok ⟨4096000, 4096, 0, 0⟩) :=
  C133_infinite kind_wf (n := 1) (kind_willing.less (by decide)) (by decide) rfl

/-- C133, memory: `alloc` for every access but `ReadOnly` (for which it never succeeds: C38). -/
theorem C133_alloc {t : Target} {k : Kernel} (w : Wf t k) {p n : Nat} (sys : Willing t k p n) {o : Options}
    (access : o.protect ≠ .readOnly) (fits : AllocFits t k.page (o.offset % k.page) o.len)
    (room : ∀ len, AllocLen k.page (o.offset % k.page) o.len len →
      o.offset % k.page + len ≠ 0 ∧ (o.offset % k.page + len + k.page - 1) / k.page ≤ n) :
    ∃ k' m, o.alloc t k = .ok (k', .ok m) := by
  refine C38_partial w access fits (fun len hl => ⟨(room len hl).1, ?_⟩)
  have s := sys.less (room len hl).2
  refine ⟨s.ok _ (Nat.le_refl _), ?_, ?_, ?_⟩ <;> rw [s.place _ (Nat.le_refl _)]
  · exact s.bottom
  · exact s.top
  · exact s.free

/-- Non-vacuity: at least 5000 bytes. -/
example : ∃ k' m, ({ Options.new with protect := .readWrite, len := .min 5000, offset := 100 } : Options).alloc
    ⟨.w64, true⟩ kind = .ok (k', .ok m) :=
  C133_alloc kind_wf kind_willing (fun h => by cases h) (by show 100 % 4096 + 5000 + 4096 < 2 ^ 64; decide)
    (fun len h => by
      have h1 : 5000 ≤ len := h.1
      have h2 : len < 5000 + 4096 := h.2.2
      show 100 % 4096 + len ≠ 0 ∧ (100 % 4096 + len + 4096 - 1) / 4096 ≤ 8
      omega)

/-! ### Windows -/

/-- A process for the examples: every call succeeds, and views go to address 67108864. -/
private def winKind : Vmap.Win := { winDemo [] with oracle := fun _ => ⟨true, 0, 67108864⟩ }

private theorem winKind_wf : WinWf ⟨.w64, true⟩ winKind :=
  ⟨⟨12, 16, rfl, rfl, by decide, by decide⟩, fun _ h => (nomatch h), fun _ h => (nomatch h), fun _ _ h => (nomatch h)⟩

private theorem winKind_willing : WinWilling ⟨.w64, true⟩ winKind 67108864 262144 :=
  ⟨fun _ => rfl, fun _ => rfl, ⟨1024, rfl⟩, by decide, by decide, fun _ h => (nomatch h), fun _ h => (nomatch h)⟩

/-- C133 on Windows, files. -/
theorem C133_windows_map_if (tab : SysTable) {t : Target} {s : Vmap.Win} (w : WinWf t s) {addr n : Nat}
    (sys : WinWilling t s addr n) {o : Options} (fits : Fits t o) {file old : Nat}
    (there : s.files file = some old) (small : old < t.lim) (can : WinMappable s o file old)
    (room : wanted (newLen o.truncate o.resize old) o.offset o.len + o.offset % s.gran ≤ n) :
    (InRange (newLen o.truncate o.resize old) o.offset o.len → ∃ s',
      s.mapIf tab t o file = .ok (s', .ok (some ⟨addr + o.offset % s.gran,
        wanted (newLen o.truncate o.resize old) o.offset o.len⟩))) ∧
    (¬ InRange (newLen o.truncate o.resize old) o.offset o.len → ∃ s',
      s.mapIf tab t o file = .ok (s', .ok none)) := by
  obtain ⟨s1, e1, kept, f1⟩ := mapIf_win_prep_willing tab sys there small can
  constructor
  · intro hr
    rw [e1]
    obtain ⟨a, b, hpa, hgb, hab, hbits⟩ := w.sizes
    have hg := kept.gran
    have := mapStep_win_willing (t := t) ⟨a, b, kept.page.trans hpa, hg.trans hgb, hab, hbits⟩ (kept.willing sys)
      fits f1 hr (by rw [hg]; exact can.some hr) (by rw [hg]; exact room)
    rw [hg] at this
    exact this
  · intro hr
    refine ⟨s1, ?_⟩
    rw [e1]
    simp only [Win.mapStep]
    by_cases ho : newLen o.truncate o.resize old < o.offset
    · rw [if_pos ho]; rfl
    · rw [if_neg ho, subU_ok (by omega)]
      simp only [bind, Except.bind, mapLen_none hr (by omega : o.offset ≤ _)]
      rfl

/-- Non-vacuity: 3000 bytes at 70000 of a file of 100000. -/
example (tab : SysTable) : ∃ s', winKind.mapIf tab ⟨.w64, true⟩ (part 70000) 7 =
    .ok (s', .ok (some ⟨67113328, 3000⟩)) :=
  (C133_windows_map_if tab winKind_wf winKind_willing (old := 100000) (part_fits (by decide)) rfl (by decide)
    ⟨fun _ _ h => (nomatch h), by decide, fun _ => by decide⟩ (by decide)).1
    (by show 70000 + 3000 ≤ 100000; decide)

/-- C133 on Windows, memory (for every access). -/
theorem C133_windows_alloc {t : Target} {s : Vmap.Win} (w : WinWf t s) {addr n : Nat}
    (sys : WinWilling t s addr n) {o : Options}
    (fits : WinAllocFits t s.gran (o.offset % s.page) o.len)
    (room : ∀ len, AllocLen s.gran (o.offset % s.page) o.len len →
      0 < o.offset % s.page + len ∧ o.offset % s.page + len ≤ n) :
    ∃ s' len, s.alloc t o = .ok (s', .ok ⟨addr + o.offset % s.page, len⟩) ∧
      AllocLen s.gran (o.offset % s.page) o.len len :=
  alloc_win_willing w sys fits room

/-- Non-vacuity: 5000 bytes for reading only. -/
example : ∃ s' len, winKind.alloc ⟨.w64, true⟩ { Options.new with len := .exact 5000, offset := 100 } =
    .ok (s', .ok ⟨67108964, len⟩) ∧ len = 5000 :=
  C133_windows_alloc winKind_wf winKind_willing (by show 100 % 4096 + 5000 < 2 ^ 64; decide)
    (fun len h => by
      have h1 : len = 5000 := h
      show 0 < 100 % 4096 + len ∧ 100 % 4096 + len ≤ 262144
      omega)

/-- What `WinWilling` says of a stretch of a whole number of pages. -/
private theorem willing_ring {t : Target} {s : Vmap.Win} (w : WinWf t s) {addr len : Nat}
    (sys : WinWilling t s addr (2 * len)) (hl : 0 < len) (hg : s.gran ∣ len) :
    ∃ s', s.mapRing t len = .ok (s', .ok addr) ∧ addr + 2 * len < t.lim := by
  have hr : (2 * len + s.page - 1) / s.page * s.page = 2 * len :=
    s.roundPage_dvd w.page_pos (Nat.dvd_mul_left_of_dvd (Nat.dvd_trans w.page_dvd hg) 2)
  have h1 := sys.top
  have h2 := sys.views
  have h3 := sys.reserved
  rw [hr] at h1 h2 h3
  obtain ⟨s', e, -⟩ := C31_succeeds t w hl h1 hg sys.bottom sys.granule h2 h3
    (fun i => ⟨sys.ok i, sys.place i⟩)
  exact ⟨s', e, h1⟩

/-- C133 on Windows, rings. -/
theorem C133_windows_ring {t : Target} {s : Vmap.Win} (w : WinWf t s) {addr n : Nat}
    (sys : WinWilling t s addr (2 * (n * s.gran))) {hint : Nat} (pos : 0 < hint)
    (hn : (hint + s.gran - 1) / s.gran = n) :
    ∃ s', s.ringNew t hint = .ok (s', .ok ⟨addr, n * s.gran, 0, 0⟩) := by
  obtain ⟨a, b, hpa, hgb, hab, hbits⟩ := w.sizes
  have hup := isRoundUp_div (len := hint) w.gran_pos
  rw [hn] at hup
  obtain ⟨s', e, htop⟩ := willing_ring w sys (by have := hup.2.1; omega) (Nat.dvd_mul_left _ _)
  have hga : s.gran ≤ addr := Nat.le_of_dvd (Nat.pos_of_ne_zero sys.bottom) sys.granule
  have hr : s.sizeAlloc.round t hint = .ok (n * s.gran) := by
    have h1 := hup.2.1
    rw [Win.sizeAlloc, Win.systemInfo, ← hn, hgb]
    rw [hgb] at hga h1 htop
    exact round_eq (by omega) (by omega)
  refine ⟨s', ?_⟩
  simp only [Win.ringNew, bind, Except.bind, hr, e]
  rfl

example : ∃ s', winKind.ringNew ⟨.w64, true⟩ 70000 = .ok (s', .ok ⟨67108864, 131072, 0, 0⟩) :=
  C133_windows_ring winKind_wf (n := 2) (winKind_willing.less (by decide)) (by decide) rfl

/-- C133 on Windows, infinite rings. -/
theorem C133_windows_infinite {t : Target} {s : Vmap.Win} (w : WinWf t s) {addr n : Nat}
    (sys : WinWilling t s addr (2 * (n * s.gran))) {hint : Nat} (pos : 0 < hint)
    (hn : (hint + s.gran - 1) / s.gran = n) :
    ∃ s', s.infNew t hint = .ok (s', .ok ⟨addr, n * s.gran, 0, 0⟩) := by
  obtain ⟨a, b, hpa, hgb, hab, hbits⟩ := w.sizes
  have hup := isRoundUp_div (len := hint) w.gran_pos
  rw [hn] at hup
  obtain ⟨s', e, htop⟩ := willing_ring w sys (by have := hup.2.1; omega) (Nat.dvd_mul_left _ _)
  have hga : s.gran ≤ addr := Nat.le_of_dvd (Nat.pos_of_ne_zero sys.bottom) sys.granule
  have hr : s.sizeAlloc.round t hint = .ok (n * s.gran) := by
    have h1 := hup.2.1
    rw [Win.sizeAlloc, Win.systemInfo, ← hn, hgb]
    rw [hgb] at hga h1 htop
    exact round_eq (by omega) (by omega)
  refine ⟨s', ?_⟩
  simp only [Win.infNew, bind, Except.bind, hr, e]
  rfl

example : ∃ s', winKind.infNew ⟨.w64, true⟩ 1 = .ok (s', .ok ⟨67108864, 65536, 0, 0⟩) :=
  C133_windows_infinite winKind_wf (n := 1) (winKind_willing.less (by decide)) (by decide) rfl

/-! ### macOS -/

private theorem mach_mapRing {t : Target} {s : Mach} (w : MachWf s) {p n : Nat}
    (sys : MachWilling t s p (2 * n)) (hn : 0 < n) :
    ∃ s', s.mapRing t (n * s.page) = .ok (s', .ok (p * s.page)) := by
  have hp := w.page
  have hfit := sys.top
  have hfit' : p * s.page + 2 * (n * s.page) < t.lim := by
    rw [← Nat.mul_assoc, ← Nat.add_mul]; exact hfit
  have hm : mulU t 2 (n * s.page) = .ok (2 * (n * s.page)) := by rw [mulU, mulL, if_pos (by omega)]
  have hpg2 : s.pages (2 * (n * s.page)) = 2 * n := by
    rw [← Nat.mul_assoc]; exact Mach.pages_mul hp _
  have hpg : s.pages (n * s.page) = n := Mach.pages_mul hp _
  have hfree : ∀ m q, (∀ r, q ≤ r → r < q + m → s.pt r = none) → s.rangeFree q m = true := by
    intro m
    induction m with
    | zero => intro q _; rfl
    | succ m ih =>
      intro q h
      rw [Mach.rangeFree, h q (Nat.le_refl _) (by omega), ih (q + 1) (fun r h1 h2 => h r (by omega) (by omega))]
      rfl
  have pgs : ∀ s' : Mach, s'.page = s.page → ∀ x, s'.pages x = s.pages x := by
    intro s' h x; simp only [Mach.pages, h]
  simp only [Mach.mapRing, hm, bind, Except.bind, Mach.vmAllocateAnywhere, hpg2]
  rw [sys.place _ (Nat.le_refl _), if_pos ⟨sys.ok _ (Nat.le_refl _), sys.bottom, hfit, hfree _ _ sys.free⟩]
  generalize hs1 : ({ (s.tock.mapRange p (2 * n) s.fresh 0 true) with fresh := s.fresh + 1 } : Mach) = s1
  have a1 : s1.page = s.page := by rw [← hs1]; rfl
  have a2 : (s1.oracle s1.tick).ok = true := by rw [← hs1]; exact sys.ok (s.tick + 1) (by omega)
  have a3 : (s1.oracle (s1.tick + 1)).ok = true := by rw [← hs1]; exact sys.ok (s.tick + 1 + 1) (by omega)
  have a4 : (s1.oracle (s1.tick + 1 + 1)).ok = true := by rw [← hs1]; exact sys.ok (s.tick + 1 + 1 + 1) (by omega)
  simp only [Mach.vmAllocateFixed, a1, Nat.mul_mod_left, pgs s1 a1, hpg, Nat.mul_div_cancel _ hp,
    show p * s.page + n * s.page < t.lim by omega, and_true, if_pos a2]
  generalize hs2 : ({ (s1.tock.mapRange p n s1.fresh 0 true) with fresh := s1.fresh + 1 } : Mach) = s2
  have b1 : s2.page = s.page := by rw [← hs2, ← a1]; rfl
  have b2 : (s2.oracle s2.tick).ok = true := by rw [← hs2]; exact a3
  have b3 : (s2.oracle (s2.tick + 1)).ok = true := by rw [← hs2]; exact a4
  have b6 : s2.pt p = some (s1.fresh, 0) := by
    rw [← hs2]
    show (if p ≤ p ∧ p < p + n then some (s1.fresh, 0 + (p - p)) else _) = _
    rw [if_pos (by omega), Nat.sub_self]
  have hne : n * s.page ≠ 0 := Nat.ne_of_gt (Nat.mul_pos hn hp)
  simp only [Mach.makeMemoryEntry, b1, Nat.mul_div_cancel _ hp, b6, pgs s2 b1, hpg, ne_eq, hne,
    not_false_eq_true, and_true, if_pos b2]
  have hadd : addU t (p * s.page) (n * s.page) = .ok ((p + n) * s.page) := by
    rw [addU, addL, ← Nat.add_mul, if_pos (by rw [Nat.add_mul]; omega)]
  generalize hs3 : ({ s2.tock with
    ports := fun q => if q = s2.nextPort then some (s1.fresh, 0) else s2.ports q
    nextPort := s2.nextPort + 1 } : Mach) = s3
  have c1 : s3.page = s.page := by rw [← hs3, ← b1]; rfl
  have c2 : (s3.oracle s3.tick).ok = true := by rw [← hs3]; exact b3
  have c3 : s3.ports s2.nextPort = some (s1.fresh, 0) := by rw [← hs3]; exact if_pos rfl
  simp only [hadd, Mach.vmMap, c3, c1, Nat.mul_mod_left, 
    show (p + n) * s.page + n * s.page < t.lim by rw [Nat.add_mul]; omega, and_true, if_pos c2]
  exact ⟨_, rfl⟩

/-- C133 on macOS, rings. -/
theorem C133_macos_ring {t : Target} {s : Mach} (w : MachWf s) {a : Nat} (page : s.page = 2 ^ a)
    (wide : a < t.width.bits) {p n : Nat} (sys : MachWilling t s p (2 * n)) {hint : Nat} (pos : 0 < hint)
    (hn : (hint + s.page - 1) / s.page = n) :
    ∃ s', s.ringNew t hint = .ok (s', .ok ⟨p * s.page, n * s.page, 0, 0⟩) := by
  have hpp := w.page
  have hup := isRoundUp_div (len := hint) hpp
  rw [hn] at hup
  have h1 := hup.2.1
  have hn0 : 0 < n := by
    rcases Nat.eq_zero_or_pos n with h | h
    · rw [h, Nat.zero_mul] at h1; omega
    · exact h
  have htop := sys.top
  have h2 : (p + 2 * n) * s.page = p * s.page + 2 * (n * s.page) := by rw [Nat.add_mul, Nat.mul_assoc]
  have h3 : s.page ≤ p * s.page := Nat.le_mul_of_pos_left _ (Nat.pos_of_ne_zero sys.bottom)
  have hr : (Size.withSize s.page).round t hint = .ok (n * s.page) := by
    have hfit : hint + s.page < t.lim := by omega
    rw [← hn, page]
    rw [page] at hfit
    exact round_eq (by omega) hfit
  obtain ⟨s', e⟩ := mach_mapRing w sys hn0
  refine ⟨s', ?_⟩
  simp only [Mach.ringNew, bind, Except.bind, hr, e]
  rfl

example : ∃ s', machDemo.ringNew ⟨.w64, true⟩ 10000 = .ok (s', .ok ⟨4096000, 12288, 0, 0⟩) :=
  C133_macos_ring machDemo_wf (a := 12) rfl (by decide) (p := 1000) (n := 3)
    ⟨fun _ _ => rfl, fun _ _ => rfl, fun _ _ _ => rfl, by decide, by decide⟩ (by decide) rfl

/-- C133 on macOS, infinite rings. -/
theorem C133_macos_infinite {t : Target} {s : Mach} (w : MachWf s) {a : Nat} (page : s.page = 2 ^ a)
    (wide : a < t.width.bits) {p n : Nat} (sys : MachWilling t s p (2 * n)) {hint : Nat} (pos : 0 < hint)
    (hn : (hint + s.page - 1) / s.page = n) :
    ∃ s', s.infNew t hint = .ok (s', .ok ⟨p * s.page, n * s.page, 0, 0⟩) := by
  obtain ⟨s', h⟩ := C133_macos_ring w page wide sys pos hn
  refine ⟨s', ?_⟩
  simp only [Mach.ringNew, Mach.infNew, bind, Except.bind] at h ⊢
  cases hl : (Size.withSize s.page).round t hint with
  | error e => rw [hl] at h; cases h
  | ok len =>
    rw [hl] at h
    simp only at h ⊢
    cases hm : s.mapRing t len with
    | error e => rw [hm] at h; cases h
    | ok kr =>
      obtain ⟨s1, res⟩ := kr
      rw [hm] at h
      cases res with
      | error e => cases h
      | ok ptr =>
        simp only [pure, Except.pure, Except.ok.injEq, Prod.mk.injEq, Ring.mk.injEq] at h
        obtain ⟨rfl, rfl, rfl, -⟩ := h
        rfl

example : ∃ s', machDemo.infNew ⟨.w64, true⟩ 10000 = .ok (s', .ok ⟨4096000, 12288, 0, 0⟩) :=
  C133_macos_infinite machDemo_wf (a := 12) rfl (by decide) (p := 1000) (n := 3)
    ⟨fun _ _ => rfl, fun _ _ => rfl, fun _ _ _ => rfl, by decide, by decide⟩ (by decide) rfl

end Vmap
