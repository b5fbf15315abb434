import Verif.Proofs.RingMap
import Verif.Proofs.MapIf
import Verif.Proofs.Open
import Verif.Spec.Works
/- Helper lemmas for C133: calls to a willing operating system. -/
namespace Vmap
open Kernel Spec

theorem Spec.Willing.later {t : Target} {k k' : Kernel} {p n : Nat} (h : Willing t k p n)
    (ho : k'.oracle = k.oracle) (ht : k.tick ≤ k'.tick) (hpt : k'.pt = k.pt) (hp : k'.page = k.page) :
    Willing t k' p n := by
  refine ⟨?_, ?_, ?_, ?_, h.bottom⟩
  · intro i hi; rw [ho]; exact h.ok i (Nat.le_trans ht hi)
  · intro i hi; rw [ho]; exact h.place i (Nat.le_trans ht hi)
  · rw [hpt]; exact h.free
  · rw [hp]; exact h.top

theorem Spec.Willing.less {t : Target} {k : Kernel} {p n m : Nat} (h : Willing t k p n) (hm : m ≤ n) :
    Willing t k p m :=
  ⟨h.ok, h.place, fun q a b => h.free q a (by omega),
    Nat.lt_of_le_of_lt (Nat.mul_le_mul_right _ (by omega)) h.top, h.bottom⟩

/-- `mmap` where the kernel chooses. -/
theorem mmap_willing {t : Target} {k : Kernel} {p n : Nat} (h : Willing t k p n) {addr len off : Nat}
    {prot : Prot} {flags : MapFlags} {fd : Option Nat} {src : Option Nat × Bool} (hl : len ≠ 0)
    (ho : off % k.page = 0) (ho2 : off < t.lim / 2) (hs : flags.priv = !flags.shared)
    (hf : flags.fixed = false) (hsrc : k.mmapSource prot flags fd = .ok src) (hn : k.pages len ≤ n) :
    (k.mmap t addr len prot flags fd off).2 = .ok (p * k.page) := by
  have hok := h.ok k.tick (Nat.le_refl _)
  have hpl := h.place k.tick (Nat.le_refl _)
  have w := h.less hn
  have hsrc' : k.tock.mmapSource prot flags fd = .ok src := hsrc
  simp only [mmap, record, mmapCore]
  rw [if_neg (by
    rw [hs]
    simp only [tock, ho]
    cases flags.shared <;> simp [hl] <;> omega)]
  rw [hsrc']
  simp only [hf, Bool.false_eq_true, if_false, mmapAt, now, hpl]
  have hfree : k.tock.rangeFree p (k.tock.pages len) = true := rangeFree_iff.mpr w.free
  have htop : ¬ t.lim ≤ (p + k.tock.pages len) * k.tock.page := Nat.not_le.mpr w.top
  rw [if_neg (by simp [htop, w.bottom]), if_neg (by simp [hfree]), if_neg (by simp [hok])]
  cases src.1 <;> rfl

/-- `mmap` at a fixed place. -/
theorem mmap_fixed_willing {t : Target} {k : Kernel} (h : ∀ i, k.tick ≤ i → (k.oracle i).ok = true) {addr len : Nat}
    {prot : Prot} {flags : MapFlags} {fd : Option Nat} {src : Option Nat × Bool} (hl : len ≠ 0)
    (hs : flags.priv = !flags.shared) (hf : flags.fixed = true)
    (hsrc : k.mmapSource prot flags fd = .ok src) (ha : addr % k.page = 0) (h0 : addr / k.page ≠ 0)
    (hlim : (addr / k.page + k.pages len) * k.page < t.lim) :
    (k.mmap t addr len prot flags fd 0).2 = .ok (addr / k.page * k.page) := by
  have hok := h k.tick (Nat.le_refl _)
  have hsrc' : k.tock.mmapSource prot flags fd = .ok src := hsrc
  have hlp := t.lim_cases
  simp only [mmap, record, mmapCore]
  rw [if_neg (by
    rw [hs]
    simp only [tock, Nat.zero_mod]
    cases flags.shared <;> simp [hl] <;> omega)]
  rw [hsrc']
  have ha' : ¬ (addr % k.tock.page != 0) = true := by simp [tock, ha]
  simp only [hf, if_true, if_neg ha', mmapAt, now]
  have htop : ¬ t.lim ≤ (addr / k.tock.page + k.tock.pages len) * k.tock.page := Nat.not_le.mpr hlim
  have h0' : ¬ addr / k.tock.page = 0 := h0
  rw [if_neg (by simp [htop, h0']), if_neg (by simp), if_neg (by simp [hok])]
  cases src.1 <;> rfl

theorem memfd_willing {t : Target} {k : Kernel} {p n : Nat} (h : Willing t k p n) :
    k.memfdCreate.2 = .ok k.nextFd := by
  have hok : k.now.ok = true := h.ok k.tick (Nat.le_refl _)
  simp only [memfdCreate, record, memfdCreateCore]
  rw [if_neg (by simp [hok])]; rfl

theorem ftruncate_willing {t : Target} {k : Kernel} {p n : Nat} (h : Willing t k p n) {fd len : Nat}
    {f : Fd} (hf : k.fds fd = some f) (hw : f.canWrite = true) (hl : len < t.lim / 2) :
    (k.ftruncate t fd len).2 = .ok () := by
  have hok : k.now.ok = true := h.ok k.tick (Nat.le_refl _)
  have hf' : k.tock.fds fd = some f := hf
  simp only [Kernel.ftruncate, record, ftruncateCore]
  rw [hf']
  simp only
  rw [if_neg (by simp [hw]; omega), if_neg (by simp [hok])]

theorem ftruncate64_willing {t : Target} {k : Kernel} {p n : Nat} (h : Willing t k p n) {fd len : Nat}
    {f : Fd} (hf : k.fds fd = some f) (hw : f.canWrite = true) (hl : len < lim64 / 2) :
    (k.ftruncate64 fd len).2 = .ok () := by
  have hok : k.now.ok = true := h.ok k.tick (Nat.le_refl _)
  have hf' : k.tock.fds fd = some f := hf
  simp only [Kernel.ftruncate64, record, ftruncate64Core]
  rw [hf']
  simp only
  rw [if_neg (by simp [hw]; omega), if_neg (by simp [hok])]

theorem fstat_willing {t : Target} {k : Kernel} {p n : Nat} (h : Willing t k p n) {fd : Nat}
    {f : Fd} (hf : k.fds fd = some f) : (k.fstatLen fd).2 = .ok (k.size f.obj) := by
  have hok : k.now.ok = true := h.ok k.tick (Nat.le_refl _)
  have hf' : k.tock.fds fd = some f := hf
  simp only [Kernel.fstatLen, record, fstatLenCore]
  rw [hf']
  simp only
  rw [if_neg (by simp [hok])]; rfl

/-- What the calls before the mapping leave alone. -/
structure Asked (k k1 : Kernel) : Prop where
  page : k1.page = k.page
  pt : k1.pt = k.pt
  fds : k1.fds = k.fds
  oracle : k1.oracle = k.oracle
  tick : k.tick ≤ k1.tick
  names : k1.names = k.names
  fresh : k1.fresh = k.fresh
  nextFd : k1.nextFd = k.nextFd

theorem Asked.wf {t : Target} {k k1 : Kernel} (g : Asked k k1) (w : Wf t k) : Wf t k1 :=
  w.same g.page g.pt g.fds g.names g.fresh g.nextFd

theorem Asked.trans {a b c : Kernel} (h : Asked a b) (g : Asked b c) : Asked a c :=
  ⟨g.page.trans h.page, g.pt.trans h.pt, g.fds.trans h.fds, g.oracle.trans h.oracle,
    Nat.le_trans h.tick g.tick, g.names.trans h.names, g.fresh.trans h.fresh, g.nextFd.trans h.nextFd⟩

theorem Asked.willing {t : Target} {k k1 : Kernel} {p n : Nat} (g : Asked k k1) (h : Willing t k p n) :
    Willing t k1 p n := h.later g.oracle g.tick g.pt g.page

theorem resizeFile_willing (tab : SysTable) {t : Target} {k : Kernel} {p n : Nat}
    (h : Willing t k p n) {fd sz : Nat} {f : Fd} (hf : k.fds fd = some f) (hw : f.canWrite = true)
    (hl : sz < 2 ^ 63) :
    ∃ k1, Options.resizeFile tab k fd sz = (k1, .ok sz) ∧ Asked k k1 := by
  have h63 : lim64 / 2 = 2 ^ 63 := by decide
  have h64 : asU64 sz = sz := by
    unfold asU64; exact Nat.mod_eq_of_lt (by unfold lim64; omega)
  have e := ftruncate64_willing h hf hw (len := sz) (by omega)
  simp only [Options.resizeFile, File.setLen, h64]
  rw [if_neg (by omega)]
  rcases ftruncate64_cases k fd sz with ⟨er, he⟩ | ⟨f', hf', -, -, he⟩
  · rw [he] at e; cases e
  · rw [he]
    exact ⟨_, rfl, rfl, rfl, rfl, rfl, Nat.le_succ _, rfl, rfl, rfl⟩

theorem mapIf_prep_willing (tab : SysTable) {t : Target} {k : Kernel} {p n : Nat} {o : Options}
    {fd : Nat} {f : Fd} (h : Willing t k p n) (hf : k.fds fd = some f) (hs : k.size f.obj < t.lim)
    (hm : Mappable t k.page o f.canWrite (k.size f.obj)) :
    ∃ k1, o.mapIf tab t k fd = Options.mapStep t k1 o fd (newLen o.truncate o.resize (k.size f.obj)) ∧
      Asked k k1 := by
  have hmod : asUsize t (k.size f.obj) = k.size f.obj := Nat.mod_eq_of_lt hs
  have e := fstat_willing h hf
  obtain ⟨k1, hk1, kept1⟩ : ∃ k1, k.fstatLen fd = (k1, .ok (k.size f.obj)) ∧ Asked k k1 := by
    rcases fstat_cases k fd with ⟨er, he⟩ | ⟨f', hf', he⟩
    · rw [he] at e; cases e
    · rw [hf] at hf'; injection hf' with hf'; subst hf'
      exact ⟨_, he, rfl, rfl, rfl, rfl, Nat.le_succ _, rfl, rfl, rfl⟩
  have hf1 : k1.fds fd = some f := by rw [kept1.fds]; exact hf
  obtain ⟨k2, hk2, kept2⟩ : ∃ k2, Options.truncateStep tab k1 o fd (k.size f.obj) =
      (k2, .ok (if o.truncate then 0 else k.size f.obj)) ∧ Asked k k2 := by
    unfold Options.truncateStep
    cases ht : o.truncate with
    | false => exact ⟨k1, by simp, kept1⟩
    | true =>
      by_cases h0 : k.size f.obj > 0
      · rw [if_pos (by simp [h0])]
        obtain ⟨k2, g1, g2⟩ := resizeFile_willing tab (kept1.willing h) hf1 (hm.change (.inl ht))
          (sz := 0) (by omega)
        exact ⟨k2, g1, kept1.trans g2⟩
      · rw [if_neg (by simp [h0])]
        exact ⟨k1, by simp; omega, kept1⟩
  have hf2 : k2.fds fd = some f := by rw [kept2.fds]; exact hf
  obtain ⟨k3, hk3, kept3⟩ : ∃ k3, Options.resizeStep tab k2 o fd (if o.truncate then 0 else k.size f.obj) =
      (k3, .ok (newLen o.truncate o.resize (k.size f.obj))) ∧ Asked k k3 := by
    have hlen := hm.length
    have hch := hm.change
    unfold Options.resizeStep newLen
    generalize (if o.truncate then 0 else k.size f.obj) = base
    cases hr : o.resize with
    | endOf => exact ⟨k2, rfl, kept2⟩
    | exact sz =>
      rw [hr] at hlen hch
      obtain ⟨k3, g1, g2⟩ := resizeFile_willing tab (kept2.willing h) hf2
        (hch (.inr (fun h => by cases h))) hlen
      exact ⟨k3, g1, kept2.trans g2⟩
    | min sz =>
      rw [hr] at hlen hch
      simp only
      by_cases hc : sz > base
      · obtain ⟨k3, g1, g2⟩ := resizeFile_willing tab (kept2.willing h) hf2
          (hch (.inr (fun h => by cases h))) hlen
        rw [if_pos hc, show Nat.max sz base = sz from Nat.max_eq_left (by omega)]
        exact ⟨k3, g1, kept2.trans g2⟩
      · rw [if_neg hc, show Nat.max sz base = base from Nat.max_eq_right (by omega)]
        exact ⟨k2, rfl, kept2⟩
    | max sz =>
      rw [hr] at hlen hch
      simp only
      by_cases hc : sz < base
      · obtain ⟨k3, g1, g2⟩ := resizeFile_willing tab (kept2.willing h) hf2
          (hch (.inr (fun h => by cases h))) hlen
        rw [if_pos hc, show Nat.min sz base = sz from Nat.min_eq_left (by omega)]
        exact ⟨k3, g1, kept2.trans g2⟩
      · rw [if_neg hc, show Nat.min sz base = base from Nat.min_eq_right (by omega)]
        exact ⟨k2, rfl, kept2⟩
  refine ⟨k3, ?_, kept3⟩
  simp only [Options.mapIf, File.len, ioErr, hk1, hmod, hk2, hk3]

theorem mapStep_willing {t : Target} {k : Kernel} (w : Wf t k) {p n : Nat} {o : Options} {fd flen : Nat}
    {f : Fd} (h : Willing t k p n) (hfit : Fits t o) (hfl : flen < t.lim) (hf : k.fds fd = some f)
    (hr : InRange flen o.offset o.len) (hread : f.canRead = true)
    (hstore : o.protect = .readWrite → f.canWrite = true) (hoff : o.offset < t.lim / 2)
    (hpos : 0 < wanted flen o.offset o.len + o.offset % k.page)
    (hn : k.pages (wanted flen o.offset o.len + o.offset % k.page) ≤ n) :
    ∃ k', o.mapStep t k fd flen =
      .ok (k', .ok (some ⟨p * k.page + o.offset % k.page, wanted flen o.offset o.len⟩)) := by
  have hpp := w.page_pos
  have hle : o.offset / k.page * k.page ≤ o.offset := Nat.div_mul_le_self _ _
  obtain ⟨b1, b2, b3, b4⟩ := mapFileBits_eq o.protect
  have hsrc : k.mmapSource (Unix.mapFileBits o.protect).1 (Unix.mapFileBits o.protect).2 (some fd) =
      .ok (some f.obj, !(Unix.mapFileBits o.protect).2.shared || f.canWrite) := by
    simp only [mmapSource, b4, Bool.false_eq_true, if_false, Option.bind, hf, hread, Bool.not_true]
    rw [if_neg]
    cases hp : o.protect <;> simp_all [Unix.mapFileBits, protOf, sharedOf, Unix.protR, Unix.protRW, Unix.protRX]
  have e := mmap_willing h (addr := 0) (by omega) (Nat.mul_mod_left (o.offset / k.page) k.page)
    (by omega) (by cases o.protect <;> rfl) b3 hsrc hn
  obtain ⟨k', hk'⟩ : ∃ k', Unix.mapFile t k fd (o.offset / k.page * k.page)
      (wanted flen o.offset o.len + o.offset % k.page) o.protect = (k', .ok (p * k.page)) := by
    have e2 : ∀ r : Sys Nat, r.2 = .ok (p * k.page) → wrapErr .mapFile r = (r.1, .ok (p * k.page)) := by
      rintro ⟨k1, r⟩ rfl; rfl
    exact ⟨_, e2 _ e⟩
  have hpg : k'.page = k.page := by
    rcases mapFile_cases t k fd (o.offset / k.page * k.page)
      (wanted flen o.offset o.len + o.offset % k.page) o.protect with
      ⟨er, he⟩ | ⟨_, _, _, _, _, _, _, _, _, _, he⟩
    · rw [he] at hk'; cases hk'
    · rw [he] at hk'; exact (congrArg (fun r => r.1.page) hk').symm
  refine ⟨k', ?_⟩
  rw [mapStep_eq w hfit hfl hr, hk']
  have hpa : ptrAdd t (p * k.page) (o.offset % k.page) = p * k.page + o.offset % k.page := by
    apply Nat.mod_eq_of_lt
    have := pages_le hpp (wanted flen o.offset o.len + o.offset % k.page)
    have htop := (h.less hn).top
    rw [Nat.add_mul] at htop
    omega
  simp only [hpg, hpa, MapMut.fromPtr]

theorem newLen_fits {t : Target} {o : Options} (hfit : Fits t o) {old : Nat} (h : old < t.lim) :
    newLen o.truncate o.resize old < t.lim := by
  have hb : (if o.truncate then 0 else old) < t.lim := by split <;> omega
  have hr := hfit.resize
  unfold newLen
  generalize (if o.truncate then 0 else old) = base at hb ⊢
  cases hres : o.resize with
  | endOf => exact hb
  | exact n => rw [hres] at hr; exact hr
  | min n => rw [hres] at hr; exact Nat.max_lt.mpr ⟨hr, hb⟩
  | max n => exact Nat.lt_of_le_of_lt (Nat.min_le_right _ _) hb

theorem open_willing (tab : SysTable) {t : Target} {k : Kernel} {p n : Nat} (h : Willing t k p n)
    {o : Options} {path : String} {old : Nat} (ho : Openable k o path old) :
    ∃ k1 x, o.openOptions.open tab k path = (k1, .ok k.nextFd) ∧ Willing t k1 p n ∧ k1.page = k.page ∧
      k1.fds k.nextFd = some ⟨x, true, o.openOptions.write⟩ ∧ k1.size x = old := by
  have hok : k.now.ok = true := h.ok k.tick (Nat.le_refl _)
  have out := open_outcome tab k o.openOptions path
  obtain ⟨⟨k1, r⟩, hx⟩ : ∃ x, x = o.openOptions.open tab k path := ⟨_, rfl⟩
  rw [← hx] at out ⊢
  simp only at out
  cases out with
  | refused hw ha => rw [ho.access ha] at hw; cases hw
  | failed e =>
    exfalso
    have hw : (!o.openOptions.write && (o.openOptions.truncate || o.openOptions.create ||
        o.openOptions.createNew)) = false := by
      have := ho.access
      cases h1 : o.openOptions.write <;> simp_all
    simp only [OpenOptions.open, hw, Bool.false_eq_true, if_false, openFile, record, openCore, hok,
      Bool.not_true] at hx
    rcases ho.found with ⟨x, hn, hc, -⟩ | ⟨hn, hc, -⟩
    · have hn' : k.tock.names path = some x := hn
      simp only [hc, Bool.false_eq_true, if_false, hn', Bool.and_false] at hx
      cases ht : o.openOptions.truncate <;>
        simp only [ht, addFd, ioErr, if_true, Bool.false_eq_true, if_false] at hx <;>
        exact absurd (congrArg Prod.snd hx) (fun h => by cases h)
    · have hn' : k.tock.names path = none := hn
      by_cases hc2 : o.openOptions.createNew = true
      · simp only [hc2, if_true, hn', addFd, ioErr] at hx
        exact absurd (congrArg Prod.snd hx) (fun h => by cases h)
      · simp only [hc2, Bool.false_eq_true, if_false, hn', hc.resolve_right hc2, if_true, addFd, ioErr] at hx
        exact absurd (congrArg Prod.snd hx) (fun h => by cases h)
  | existing _ x name new writable state others keep trunc =>
    refine ⟨k1, x, rfl, ?_, by rw [state], by rw [state]; exact if_pos rfl, ?_⟩
    · rw [state]; exact h.later rfl (Nat.le_succ _) rfl rfl
    · rcases ho.found with ⟨y, hn, -, hold⟩ | ⟨hn, -⟩
      · rw [name] at hn; injection hn with hn; subst hn
        rw [hold]
        cases ht : o.openOptions.truncate with
        | true => exact trunc ht
        | false => rw [(keep ht).1]; rfl
      · rw [name] at hn; cases hn
  | created name asks write =>
    refine ⟨_, k.fresh, rfl, h.later rfl (Nat.le_succ _) rfl rfl, rfl, if_pos rfl, ?_⟩
    rcases ho.found with ⟨y, hn, -⟩ | ⟨-, -, hold⟩
    · rw [name] at hn; cases hn
    · rw [hold]; exact if_pos rfl

namespace Posix

theorem tmpOpen_willing {t : Target} {k : Kernel} (w : Wf t k) {p n : Nat} (h : Willing t k p n)
    {len : Nat} (hl : len < t.lim / 2) : tmpOpen t k len = (opened k len, .ok k.nextFd) := by
  rcases tmpOpen_cases w len with ⟨k', err, l, he, -, -, -, -⟩ | ⟨-, he, -⟩
  · exfalso
    have h1 := memfd_willing h
    rcases memfd_cases k with ⟨e, hm⟩ | hm
    · rw [hm] at h1; cases h1
    · have hw1 : Willing t k.memfdCreate.1 p n := by
        rw [hm]; exact h.later rfl (Nat.le_succ _) rfl rfl
      have hf : k.memfdCreate.1.fds k.nextFd = some ⟨k.fresh, true, true⟩ := by
        rw [hm]; simp
      have h2 := ftruncate_willing hw1 hf rfl hl
      have hsplit : k.memfdCreate = (k.memfdCreate.1, .ok k.nextFd) := by rw [← h1]
      have hsplit2 : k.memfdCreate.1.ftruncate t k.nextFd len =
          ((k.memfdCreate.1.ftruncate t k.nextFd len).1, .ok ()) := by rw [← h2]
      rw [tmpOpen, memfdOpen, hsplit] at he
      simp only [wrapErr] at he
      rw [hsplit2] at he
      cases he
  · exact he

/-- A ring of `n` pages is created where the kernel offers `2 * n` pages. -/
theorem mapRing_willing {t : Target} {k : Kernel} (w : Wf t k) {p n : Nat}
    (h : Willing t k p (2 * n)) (hn : 0 < n) :
    ∃ k', mapRing t k (n * k.page) = .ok (k', .ok (p * k.page)) := by
  have hpp := w.page_pos
  have hlen : 0 < n * k.page := Nat.mul_pos hn hpp
  have htop := h.top
  have he2 : (p + 2 * n) * k.page = p * k.page + 2 * (n * k.page) := by
    rw [Nat.add_mul, Nat.mul_assoc]
  have hlc := t.lim_cases
  have hlim2 : n * k.page < t.lim / 2 := by omega
  have ho := tmpOpen_willing w h hlim2
  have pg : ∀ m, k.pages (m * k.page) = m := by
    intro m
    have := pages_mul (k := k) hpp (Nat.dvd_mul_left k.page m)
    exact Nat.eq_of_mul_eq_mul_right hpp this
  have hmul : mulU t (n * k.page) 2 = .ok (n * k.page * 2) := mulU_ok (by omega)
  have hw1 : Willing t (opened k (n * k.page)) p (2 * n) :=
    h.later rfl (by simp only [opened]; omega) rfl rfl
  have h2n : n * k.page * 2 = 2 * n * k.page := by rw [Nat.mul_comm, Nat.mul_assoc]
  -- reservation
  have e1 := mmap_willing hw1 (addr := 0) (len := n * k.page * 2) (off := 0)
    (prot := Unix.protRW) (flags := { priv := true, anon := true }) (fd := none) (src := (none, true))
    (by omega) (Nat.zero_mod _) (by omega) rfl rfl rfl
    (by
      have : (opened k (n * k.page)).pages (n * k.page * 2) = k.pages (n * k.page * 2) := rfl
      rw [this, h2n, pg]; exact Nat.le_refl _)
  have r1 := mmap_cases t (opened k (n * k.page)) 0 (n * k.page * 2) Unix.protRW
    { priv := true, anon := true } none 0
  obtain ⟨k2, hk2⟩ : ∃ k2, k2 = ((opened k (n * k.page)).mmap t 0 (n * k.page * 2) Unix.protRW
    { priv := true, anon := true } none 0).1 := ⟨_, rfl⟩
  have s1 : (opened k (n * k.page)).mmap t 0 (n * k.page * 2) Unix.protRW
    { priv := true, anon := true } none 0 = (k2, .ok (p * k.page)) := by
    rw [hk2]; exact Prod.ext rfl e1
  have k2f : k2.page = k.page ∧ k2.fds k.nextFd = some ⟨k.fresh, true, true⟩ ∧
      k2.oracle = k.oracle ∧ k.tick ≤ k2.tick := by
    rcases r1 with ⟨pt', e, e1', -⟩ | ⟨p', -, -, -, -, -, -, -, ⟨-, e8⟩ | ⟨hc, -⟩⟩
    · rw [e1'] at s1; cases s1
    · rw [hk2, e8]; exact ⟨rfl, by simp [opened], rfl, by simp only [opened]; omega⟩
    · cases hc
  -- first half
  have wk2 : Willing t { k2 with pt := k.pt } p (2 * n) := h.later k2f.2.2.1 k2f.2.2.2 rfl k2f.1
  have fixed : ∀ (k2 : Kernel), k2.page = k.page → k2.fds k.nextFd = some ⟨k.fresh, true, true⟩ →
      k2.oracle = k.oracle → k.tick ≤ k2.tick → ∀ a, a ≠ 0 → (a + n) * k.page < t.lim →
      ∃ k3, k2.mmap t (a * k.page) (n * k.page) Unix.protRW { shared := true, fixed := true }
        (some k.nextFd) 0 = (k3, .ok (a * k.page)) ∧ k3.page = k.page ∧
        k3.fds k.nextFd = some ⟨k.fresh, true, true⟩ ∧ k3.oracle = k.oracle ∧ k.tick ≤ k3.tick := by
    intro k2 a1 a2 a3 a4 a ha hal
    have hd : a * k.page / k2.page = a := by rw [a1]; exact Nat.mul_div_cancel _ hpp
    have hpgs : k2.pages (n * k.page) = n := by
      have : k2.pages (n * k.page) = k.pages (n * k.page) := by simp only [Kernel.pages, a1]
      rw [this, pg]
    have e := mmap_fixed_willing (t := t) (k := k2) (src := (some k.fresh, true))
      (fun i hi => by rw [a3]; exact h.ok i (Nat.le_trans a4 hi)) (addr := a * k.page)
      (len := n * k.page) (prot := Unix.protRW) (flags := { shared := true, fixed := true })
      (fd := some k.nextFd) (by omega) rfl rfl
      (by simp [mmapSource, a2, Unix.protRW]) (by rw [a1]; exact Nat.mul_mod_left _ _)
      (by rw [hd]; exact ha) (by rw [hd, hpgs, a1]; exact hal)
    rw [hd, a1] at e
    refine ⟨_, Prod.ext rfl e, ?_⟩
    rcases mmap_cases t k2 (a * k.page) (n * k.page) Unix.protRW { shared := true, fixed := true }
      (some k.nextFd) 0 with ⟨pt', er, e1', -⟩ | ⟨p', -, -, -, -, -, -, -, ⟨hc, -⟩ | ⟨-, d, f, -, -, -, -, e8⟩⟩
    · rw [e1'] at e; cases e
    · cases hc
    · rw [e8]; exact ⟨a1, a2, a3, Nat.le_succ_of_le a4⟩
  obtain ⟨k3, g1, g2, g3, g4, g5⟩ := fixed k2 k2f.1 k2f.2.1 k2f.2.2.1 k2f.2.2.2 p h.bottom
    (by rw [Nat.add_mul]; omega)
  obtain ⟨k4, i1, -⟩ := fixed k3 g2 g3 g4 g5 (p + n) (by have := h.bottom; omega)
    (by rw [Nat.add_mul, Nat.add_mul]; omega)
  rw [Nat.add_mul] at i1
  refine ⟨k4.close k.nextFd, ?_⟩
  simp only [mapRing, ho, wrapFd, hmul, bind, Except.bind, map, s1, wrapErr, wrapPtr, g1, i1, pure,
    Except.pure]

end Posix

end Vmap
