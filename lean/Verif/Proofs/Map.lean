import Verif.Proofs.MapIf
import Verif.Proofs.Store
/- Helper lemmas: mapping, allocation, page bounds of maps. -/
namespace Vmap
open Kernel Spec

/-! ### Page bounds -/

theorem pages_eq {k : Kernel} (len : Nat) : k.pages len = (len + k.page - 1) / k.page := rfl

theorem sizePage_eq (k : Kernel) : Size.page k = Size.withSize k.page := rfl
theorem sizeAlloc_eq (k : Kernel) : Size.alloc k = Size.withSize k.page := rfl

theorem bounds_eq {t : Target} {k : Kernel} (w : Wf t k) {ptr len : Nat}
    (h : len + ptr % k.page + k.page < t.lim) :
    (Size.withSize k.page).bounds t ptr len =
      .ok (ptr / k.page * k.page, k.pages (len + ptr % k.page) * k.page) := by
  obtain ⟨s, hs, hs2⟩ := w.page
  rw [hs] at h ⊢
  unfold Size.bounds
  rw [offset_eq]
  simp only [bind, Except.bind]
  rw [addU_ok (by omega)]
  simp only
  rw [round_eq (by omega) h]
  simp only [pure, Except.pure, pages, hs]
  have := Nat.div_add_mod ptr (2 ^ s)
  rw [Nat.mul_comm] at this
  rw [show ptr - ptr % 2 ^ s = ptr / 2 ^ s * 2 ^ s by omega]

/-- The pages of a sub-range lie among the pages of the map. -/
theorem Spec.Pages.sub {t : Target} {k : Kernel} (hp : 0 < k.page) {ptr len p n : Nat}
    (g : Pages t k.page ptr len p n) {off l : Nat} (h : off + l ≤ len) :
    p ≤ (ptr + off) / k.page ∧
    (ptr + off) / k.page + k.pages (l + (ptr + off) % k.page) ≤ p + n ∧
    l + (ptr + off) % k.page + k.page < t.lim := by
  have h1 := Nat.div_add_mod (ptr + off) k.page
  have h2 := Nat.mod_lt (ptr + off) hp
  rw [Nat.mul_comm] at h1
  have h3 : p ≤ (ptr + off) / k.page := by
    rw [Nat.le_div_iff_mul_le hp]; have := g.lower; omega
  have hr := isRoundUp_div (len := l + (ptr + off) % k.page) hp
  have h4 : (ptr + off) / k.page + k.pages (l + (ptr + off) % k.page) ≤ p + n := by
    have hd : (ptr + off) / k.page ≤ p + n := by
      apply Nat.le_of_mul_le_mul_right _ hp
      have := g.upper; omega
    have : (l + (ptr + off) % k.page + k.page - 1) / k.page * k.page ≤
        (p + n - (ptr + off) / k.page) * k.page := by
      apply hr.2.2 _ (Nat.dvd_mul_left _ _)
      rw [Nat.sub_mul]
      have := g.upper; omega
    have := Nat.le_of_mul_le_mul_right this hp
    rw [pages_eq]; omega
  refine ⟨h3, h4, ?_⟩
  have h5 : l + (ptr + off) % k.page ≤ (p + n - (ptr + off) / k.page) * k.page := by
    rw [Nat.sub_mul]; have := g.upper; omega
  have h6 : (p + n - (ptr + off) / k.page) * k.page + p * k.page ≤ (p + n) * k.page := by
    rw [← Nat.add_mul]; apply Nat.mul_le_mul_right; omega
  have h7 : 1 * k.page ≤ p * k.page := Nat.mul_le_mul_right _ g.p_pos
  have := g.fits
  omega

theorem Spec.Pages.top {t : Target} {u ptr len p n : Nat} (g : Pages t u ptr len p n) :
    ptr + len < t.lim := by
  have := g.upper; have := g.fits; omega

/-- The page range handed to the OS for a whole map is exactly the map's pages. -/
theorem Spec.Pages.whole {t : Target} {k : Kernel} (hp : 0 < k.page) {ptr len p n : Nat}
    (g : Pages t k.page ptr len p n) :
    ptr / k.page = p ∧ k.pages (len + ptr % k.page) = n := by
  have h1 : ptr / k.page = p := by
    apply Nat.div_eq_of_lt_le
    · exact g.lower
    · rw [Nat.add_mul, Nat.one_mul]; exact g.lower'
  refine ⟨h1, ?_⟩
  have h2 := Nat.div_add_mod ptr k.page
  rw [h1, Nat.mul_comm] at h2
  have hu := g.upper
  have hu' := g.upper'
  rw [Nat.add_mul] at hu hu'
  rw [pages_eq]
  apply Nat.div_eq_of_lt_le
  · omega
  · rw [Nat.add_mul, Nat.one_mul]; omega

/-- The pages of a freshly placed map. -/
theorem pages_of {t : Target} {k : Kernel} (hp : 0 < k.page) {p d len : Nat} (hp0 : p ≠ 0)
    (hd : d < k.page) (hl : len + d ≠ 0) (hf : (p + k.pages (len + d)) * k.page < t.lim) :
    Pages t k.page (p * k.page + d) len p (k.pages (len + d)) := by
  have hr := isRoundUp_div (len := len + d) hp
  have h1 : len + d ≤ k.pages (len + d) * k.page := hr.2.1
  have h2 : k.pages (len + d) * k.page < len + d + k.page := by
    have := Nat.div_mul_le_self (len + d + k.page - 1) k.page
    rw [pages_eq]; omega
  refine ⟨by omega, ?_, hf, by omega, by omega, ?_, ?_⟩
  · rcases Nat.eq_zero_or_pos (k.pages (len + d)) with h | h
    · rw [h] at h1; omega
    · exact h
  · rw [Nat.add_mul]; omega
  · rw [Nat.add_mul]; omega

/-- A mapped run of pages shows the bytes of its object. -/
theorem mapsAll_of_mapped {k' : Kernel} {pt : Nat → Option Pte} {p n o idx prot sh mw d len}
    (hp : 0 < k'.page) (hpt : k'.pt = mappedPt pt p n o idx prot sh mw)
    (hl : d + len ≤ n * k'.page) (hs : idx * k'.page + d + len ≤ k'.size o) :
    k'.MapsAll (p * k'.page + d) len o (idx * k'.page + d) sh mw prot := by
  intro i hi
  have h1 : (p * k'.page + d + i) / k'.page = p + (d + i) / k'.page := by
    rw [Nat.add_assoc, Nat.mul_comm, Nat.mul_add_div hp]
  have h2 : (p * k'.page + d + i) % k'.page = (d + i) % k'.page := by
    rw [Nat.add_assoc, Nat.mul_comm, Nat.mul_add_mod]
  have h3 := Nat.div_add_mod (d + i) k'.page
  rw [Nat.mul_comm] at h3
  have h4 : (d + i) / k'.page < n := by
    rw [Nat.div_lt_iff_lt_mul hp]; omega
  refine ⟨_, by rw [hpt, h1]; exact if_pos ⟨Nat.le_add_right _ _, Nat.add_lt_add_left h4 _⟩, rfl, ?_, rfl, rfl, rfl, ?_⟩
  · simp only [h2]
    rw [Nat.add_sub_cancel_left, Nat.add_mul]; omega
  · simp only [backed, decide_eq_true_eq]
    rw [Nat.add_sub_cancel_left, Nat.add_mul]; omega

theorem created_of_mapped {t : Target} {k k' : Kernel} {p o idx prot sh mw d len}
    (hp : 0 < k.page) (hpg : k'.page = k.page) (hp0 : p ≠ 0) (hd : d < k.page)
    (hl : len + d ≠ 0) (hf : (p + k.pages (len + d)) * k.page < t.lim)
    (hfree : ∀ q, p ≤ q → q < p + k.pages (len + d) → k.pt q = none)
    (hpt : k'.pt = mappedPt k.pt p (k.pages (len + d)) o idx prot sh mw)
    (hs : idx * k.page + d + len ≤ k'.size o) :
    Created t k k' (p * k.page + d) len o (idx * k.page + d) sh mw prot p
      (k.pages (len + d)) := by
  refine ⟨pages_of hp hp0 hd hl hf, hfree, ?_, ?_, ?_⟩
  · intro q h1 h2
    exact ⟨_, by rw [hpt]; exact if_pos ⟨h1, h2⟩, rfl, rfl, rfl, rfl⟩
  · intro q h
    rw [hpt]; exact if_neg h
  · have := mapsAll_of_mapped (d := d) (len := len) (by rw [hpg]; exact hp) hpt
      (by rw [hpg]; have := pages_le hp (len + d); omega) (by rw [hpg]; exact hs)
    rwa [hpg] at this

/-! ### `map_file` and the mapping step of `map_if` -/

/-- The bits handed to `mmap` for a file map. -/
theorem mapFileBits_eq (prot : Protect) :
    (Unix.mapFileBits prot).1 = protOf prot ∧ (Unix.mapFileBits prot).2.shared = sharedOf prot ∧
      (Unix.mapFileBits prot).2.fixed = false ∧ (Unix.mapFileBits prot).2.anon = false := by
  cases prot <;> exact ⟨rfl, rfl, rfl, rfl⟩

theorem mapFile_cases (t : Target) (k : Kernel) (fd off len : Nat) (prot : Protect) :
    (∃ e, Unix.mapFile t k fd off len prot =
      ({ k with tick := k.tick + 1, log := ⟨.mmap 0 len (protOf prot) (Unix.mapFileBits prot).2 (some fd) off, .error e⟩ :: k.log },
        .error (Error.lastOsError .mapFile e))) ∨
    (∃ p f, len ≠ 0 ∧ off % k.page = 0 ∧ p ≠ 0 ∧ (p + k.pages len) * k.page < t.lim ∧
      (∀ q, p ≤ q → q < p + k.pages len → k.pt q = none) ∧
      k.fds fd = some f ∧ f.canRead = true ∧
      (sharedOf prot = true → (protOf prot).w = true → f.canWrite = true) ∧
      Unix.mapFile t k fd off len prot =
      ({ k with
          pt := mappedPt k.pt p (k.pages len) f.obj (off / k.page) (protOf prot) (sharedOf prot)
            (!sharedOf prot || f.canWrite)
          tick := k.tick + 1
          log := ⟨.mmap 0 len (protOf prot) (Unix.mapFileBits prot).2 (some fd) off, .ok (p * k.page)⟩ :: k.log },
        .ok (p * k.page))) := by
  obtain ⟨h1, h2, h3, h4⟩ := mapFileBits_eq prot
  simp only [Unix.mapFile, h1]
  rw [← h2]
  generalize (Unix.mapFileBits prot).2 = fl at *
  rcases mmap_cases t k 0 len (protOf prot) fl (some fd) off with
    ⟨pt', e, he, g2, -⟩ | ⟨p, g1, g2, -, g4, g5, -, g7, g8⟩
  · rw [he, g2 h3]
    exact .inl ⟨e, rfl⟩
  · rcases g8 with ⟨ha, -⟩ | ⟨-, d, f, hd, hf, hr, hw, he⟩
    · rw [h4] at ha; cases ha
    · injection hd with hd
      subst hd
      refine .inr ⟨p, f, g1, g2, g4, g5, g7 h3, hf, hr, hw, ?_⟩
      rw [he]; rfl

theorem mapLen_some {flen off : Nat} {e : Extent} (h : InRange flen off e) :
    off ≤ flen ∧ Options.mapLen e (flen - off) = some (wanted flen off e) := by
  cases e with
  | endOf => exact ⟨h, rfl⟩
  | exact l =>
    have h : off + l ≤ flen := h
    refine ⟨by omega, ?_⟩
    simp only [Options.mapLen, wanted]
    rw [if_neg (by omega)]
  | min l =>
    have h : off + l ≤ flen := h
    refine ⟨by omega, ?_⟩
    simp only [Options.mapLen, wanted]
    rw [if_neg (by omega)]
  | max l => exact ⟨h, rfl⟩

theorem mapLen_none {flen off : Nat} {e : Extent} (h : ¬ InRange flen off e) (ho : off ≤ flen) :
    Options.mapLen e (flen - off) = none := by
  cases e with
  | endOf => exact absurd ho h
  | exact l =>
    have h : ¬ off + l ≤ flen := h
    simp only [Options.mapLen]
    rw [if_pos (by omega)]
  | min l =>
    have h : ¬ off + l ≤ flen := h
    simp only [Options.mapLen]
    rw [if_pos (by omega)]
  | max l => exact absurd ho h

theorem wanted_le {flen off : Nat} {e : Extent} (h : InRange flen off e) :
    off + wanted flen off e ≤ flen := by
  cases e with
  | endOf => have h : off ≤ flen := h; simp only [wanted]; omega
  | exact l => exact h
  | min l => have h : off + l ≤ flen := h; simp only [wanted]; omega
  | max l =>
    have h : off ≤ flen := h
    have := Nat.min_le_right l (flen - off)
    have e : Nat.min l (flen - off) = min l (flen - off) := rfl
    simp only [wanted, e]; omega

/-- The system call of a file mapping. -/
def mapCall (k : Kernel) (o : Options) (fd flen : Nat) : Call :=
  .mmap 0 (wanted flen o.offset o.len + o.offset % k.page) (protOf o.protect)
    (Unix.mapFileBits o.protect).2 (some fd) (o.offset / k.page * k.page)

/-- The mapping step of `map_if` in range is one call. -/
theorem mapStep_eq {t : Target} {k : Kernel} (w : Wf t k) {o : Options} {fd flen : Nat}
    (hfit : Fits t o) (hfl : flen < t.lim) (hr : InRange flen o.offset o.len) :
    o.mapStep t k fd flen =
        match Unix.mapFile t k fd (o.offset / k.page * k.page)
          (wanted flen o.offset o.len + o.offset % k.page) o.protect with
        | (k, .error e) => .ok (k, .error e)
        | (k, .ok ptr) => .ok (k, .ok (some (MapMut.fromPtr (ptrAdd t ptr (o.offset % k.page))
            (wanted flen o.offset o.len)))) := by
  obtain ⟨h1, h2⟩ := mapLen_some hr
  have h3 := wanted_le hr
  have hpp := w.page_pos
  have hd := Nat.div_add_mod o.offset k.page
  have hm := Nat.mod_lt o.offset hpp
  rw [Nat.mul_comm] at hd
  have htr : (Size.alloc k).truncate t o.offset = .ok (o.offset / k.page * k.page) := by
    obtain ⟨s, hs, hs2⟩ := w.page
    rw [sizeAlloc_eq, hs]
    exact truncate_eq (by omega) hfit.offset
  simp only [Options.mapStep]
  rw [if_neg (by omega), subU_ok h1]
  simp only [bind, Except.bind, h2, htr]
  rw [subU_ok (by omega)]
  simp only
  rw [show o.offset - o.offset / k.page * k.page = o.offset % k.page by omega,
    addU_ok (by omega)]
  simp only
  split
  · rename_i hx; rw [hx]; rfl
  · rename_i k' ptr hx
    have : k'.page = k.page := by
      have hk : k' = (Unix.mapFile t k fd (o.offset / k.page * k.page)
        (wanted flen o.offset o.len + o.offset % k.page) o.protect).1 := by rw [hx]
      rw [hk]
      rcases mapFile_cases t k fd (o.offset / k.page * k.page)
        (wanted flen o.offset o.len + o.offset % k.page) o.protect with
        ⟨e, he⟩ | ⟨p, f, _, _, _, _, _, _, _, _, he⟩ <;> rw [he]
    rw [hx]; simp only [this]; rfl

/-- All outcomes of the mapping step of `map_if`. -/
theorem mapStep_cases {t : Target} {k : Kernel} (w : Wf t k) {o : Options} {fd flen : Nat}
    (hfit : Fits t o) (hfl : flen < t.lim) :
    (¬ InRange flen o.offset o.len ∧ o.mapStep t k fd flen = .ok (k, .ok none)) ∨
    (InRange flen o.offset o.len ∧ ∃ e, o.mapStep t k fd flen =
      .ok ({ k with tick := k.tick + 1, log := ⟨mapCall k o fd flen, .error e⟩ :: k.log },
        .error (Error.lastOsError .mapFile e))) ∨
    (InRange flen o.offset o.len ∧ ∃ p f,
      wanted flen o.offset o.len + o.offset % k.page ≠ 0 ∧ p ≠ 0 ∧
      (p + k.pages (wanted flen o.offset o.len + o.offset % k.page)) * k.page < t.lim ∧
      (∀ q, p ≤ q → q < p + k.pages (wanted flen o.offset o.len + o.offset % k.page) →
        k.pt q = none) ∧
      k.fds fd = some f ∧ f.canRead = true ∧
      (sharedOf o.protect = true → (protOf o.protect).w = true → f.canWrite = true) ∧
      o.mapStep t k fd flen = .ok ({ k with
          pt := mappedPt k.pt p (k.pages (wanted flen o.offset o.len + o.offset % k.page)) f.obj
            (o.offset / k.page) (protOf o.protect) (sharedOf o.protect)
            (!sharedOf o.protect || f.canWrite)
          tick := k.tick + 1
          log := ⟨mapCall k o fd flen, .ok (p * k.page)⟩ :: k.log },
        .ok (some ⟨p * k.page + o.offset % k.page, wanted flen o.offset o.len⟩))) := by
  by_cases hr : InRange flen o.offset o.len
  · obtain ⟨h1, h2⟩ := mapLen_some hr
    have h3 := wanted_le hr
    have hpp := w.page_pos
    have hd := Nat.div_add_mod o.offset k.page
    have hm := Nat.mod_lt o.offset hpp
    rw [Nat.mul_comm] at hd
    have step := mapStep_eq w (fd := fd) hfit hfl hr
    rcases mapFile_cases t k fd (o.offset / k.page * k.page)
      (wanted flen o.offset o.len + o.offset % k.page) o.protect with
      ⟨e, he⟩ | ⟨p, f, g1, g2, g3, g4, g5, g6, g7, g8, he⟩
    · refine .inr (.inl ⟨hr, e, ?_⟩)
      rw [step, he]; rfl
    · refine .inr (.inr ⟨hr, p, f, g1, g3, g4, g5, g6, g7, g8, ?_⟩)
      rw [step, he]
      have hpa : ptrAdd t (p * k.page) (o.offset % k.page) = p * k.page + o.offset % k.page := by
        apply Nat.mod_eq_of_lt
        have := pages_le hpp (wanted flen o.offset o.len + o.offset % k.page)
        rw [Nat.add_mul] at g4
        omega
      simp only [hpa, MapMut.fromPtr, Nat.mul_div_cancel _ hpp]
      rfl
  · refine .inl ⟨hr, ?_⟩
    simp only [Options.mapStep]
    by_cases ho : flen < o.offset
    · rw [if_pos ho]; rfl
    · rw [if_neg ho, subU_ok (by omega)]
      simp only [bind, Except.bind, mapLen_none hr (by omega : o.offset ≤ flen)]
      rfl

/-- All outcomes of `map_if` on a descriptor, in terms of the state before. -/
inductive MapIfOutcome (tab : SysTable) (t : Target) (k : Kernel) (o : Options) (fd : Nat) :
    Kernel → Result (Option MapMut) → Prop
  /-- asking for or setting the length failed -/
  | lenErr (k1 : Kernel) (e : Error) (l : List Event) (log : k1.log = l ++ k.log)
      (calls : LengthCalls fd l) (err : LengthError tab l o.resize e)
      (bad : k.fds fd = none → OnlyFile k k1 0 ∧ k1.size = k.size ∧ k1.data = k.data)
      (good : ∀ f, k.fds fd = some f → OnlyFile k k1 f.obj ∧
        (Resized k k1 f.obj (k.size f.obj) (k.size f.obj) ∨
          (o.truncate = true ∧ k1.size f.obj = 0))) : MapIfOutcome tab t k o fd k1 (.error e)
  /-- the range lies outside the file -/
  | outside (f : Fd) (k1 : Kernel) (l : List Event) (fd_eq : k.fds fd = some f)
      (out : ¬ InRange (newLen o.truncate o.resize (k.size f.obj)) o.offset o.len)
      (only : OnlyFile k k1 f.obj)
      (resized : Resized k k1 f.obj (if o.truncate then 0 else k.size f.obj)
        (newLen o.truncate o.resize (k.size f.obj)))
      (log : k1.log = l ++ k.log) (calls : LengthCalls fd l)
      (quiet : (o.truncate = false ∨ k.size f.obj = 0) → (∀ n, o.resize ≠ .exact n) →
        newLen o.truncate o.resize (k.size f.obj) = k.size f.obj →
        l = [⟨.fstat fd, .ok (k.size f.obj)⟩]) : MapIfOutcome tab t k o fd k1 (.ok none)
  /-- `mmap` failed -/
  | mapErr (f : Fd) (k1 : Kernel) (l : List Event) (e : Errno) (fd_eq : k.fds fd = some f)
      (inr : InRange (newLen o.truncate o.resize (k.size f.obj)) o.offset o.len)
      (only : OnlyFile k k1 f.obj)
      (resized : Resized k k1 f.obj (if o.truncate then 0 else k.size f.obj)
        (newLen o.truncate o.resize (k.size f.obj)))
      (log : k1.log = ⟨mapCall k o fd (newLen o.truncate o.resize (k.size f.obj)), .error e⟩ ::
        (l ++ k.log)) (calls : LengthCalls fd l)
      (quiet : (o.truncate = false ∨ k.size f.obj = 0) → (∀ n, o.resize ≠ .exact n) →
        newLen o.truncate o.resize (k.size f.obj) = k.size f.obj →
        l = [⟨.fstat fd, .ok (k.size f.obj)⟩]) :
      MapIfOutcome tab t k o fd k1 (.error (Error.lastOsError .mapFile e))
  /-- a map was made -/
  | mapped (f : Fd) (k1 k2 : Kernel) (l : List Event) (p n : Nat) (m : MapMut)
      (fd_eq : k.fds fd = some f)
      (inr : InRange (newLen o.truncate o.resize (k.size f.obj)) o.offset o.len)
      (canRead : f.canRead = true)
      (canWrite : sharedOf o.protect = true → (protOf o.protect).w = true → f.canWrite = true)
      (only : OnlyFile k k1 f.obj) (wf : Wf t k2)
      (resized : Resized k k1 f.obj (if o.truncate then 0 else k.size f.obj)
        (newLen o.truncate o.resize (k.size f.obj)))
      (len : m.len = wanted (newLen o.truncate o.resize (k.size f.obj)) o.offset o.len)
      (created : Created t k k2 m.ptr m.len f.obj o.offset (sharedOf o.protect)
        (!sharedOf o.protect || f.canWrite) (protOf o.protect) p n)
      (log : k2.log = ⟨mapCall k o fd (newLen o.truncate o.resize (k.size f.obj)),
        .ok (p * k.page)⟩ :: (l ++ k.log)) (calls : LengthCalls fd l)
      (quiet : (o.truncate = false ∨ k.size f.obj = 0) → (∀ n, o.resize ≠ .exact n) →
        newLen o.truncate o.resize (k.size f.obj) = k.size f.obj →
        l = [⟨.fstat fd, .ok (k.size f.obj)⟩])
      (rest : k2 = { k1 with pt := k2.pt, tick := k2.tick, log := k2.log }) :
      MapIfOutcome tab t k o fd k2 (.ok (some m))

theorem mapIf_outcome (tab : SysTable) {t : Target} {k : Kernel} (w : Wf t k) {o : Options}
    {fd : Nat} (hfit : Fits t o) (hsize : ∀ f, k.fds fd = some f → k.size f.obj < t.lim) :
    ∃ k' r, o.mapIf tab t k fd = .ok (k', r) ∧ MapIfOutcome tab t k o fd k' r := by
  have hpp := w.page_pos
  rcases prep_cases tab hfit hsize with ⟨k1, e, l, h1, h2, h3, h4, h5, h6⟩ |
    ⟨f, k1, l, hf, h1, h2, h3, h4, h5, h6, h7⟩
  · exact ⟨k1, _, h1, .lenErr k1 e l h2 h3 h4 h5 h6⟩
  · have w1 : Wf t k1 := h2.wf w
    have hpg := h2.page
    rcases mapStep_cases w1 (fd := fd) hfit h4 with ⟨g1, g2⟩ | ⟨g1, e, g2⟩ |
      ⟨g1, p, f', g2, g3, g4, g5, g6, g7, g8, g9⟩
    · exact ⟨k1, _, h1.trans g2, .outside f k1 l hf g1 h2 h3 h5 h6 h7⟩
    · refine ⟨_, _, h1.trans g2, .mapErr f _ l e hf g1 ?_ ?_ ?_ h6 h7⟩
      · exact ⟨h2.page, h2.pt, h2.fds, h2.names, h2.disk, h2.fresh, h2.nextFd, h2.oracle, h2.size,
          h2.data⟩
      · exact ⟨h3.size, h3.kept, h3.zero⟩
      · simp only [mapCall, hpg, h5]
    · rw [h2.fds, hf] at g6
      injection g6 with g6
      subst g6
      have hm : o.offset % k.page < k.page := Nat.mod_lt _ hpp
      have hdm := Nat.div_add_mod o.offset k.page
      rw [Nat.mul_comm] at hdm
      have hw := wanted_le g1
      refine ⟨_, _, h1.trans g9, .mapped f k1 _ l p _ _ hf g1 g7 g8 h2 ?_ h3 rfl
        (?_ : Created t k _ _ _ _ _ _ _ _ p
          (k1.pages (wanted (newLen o.truncate o.resize (k.size f.obj)) o.offset o.len +
            o.offset % k1.page))) ?_ h6 h7 rfl⟩
      · exact w1.mapped rfl rfl rfl rfl (Nat.le_refl _) rfl
          (by have := (w1.fds fd f (by rw [h2.fds]; exact hf)).1; exact this)
          (w1.fd_ne (by rw [h2.fds]; exact hf)) g3 g4
      · have := created_of_mapped (t := t) (k := k1) (p := p) (o := f.obj)
          (idx := o.offset / k1.page) (prot := protOf o.protect) (sh := sharedOf o.protect)
          (mw := !sharedOf o.protect || f.canWrite) (d := o.offset % k1.page)
          (len := wanted (newLen o.truncate o.resize (k.size f.obj)) o.offset o.len)
          (k' := { k1 with
            pt := mappedPt k1.pt p (k1.pages (wanted (newLen o.truncate o.resize (k.size f.obj)) o.offset o.len + o.offset % k1.page)) f.obj
              (o.offset / k1.page) (protOf o.protect) (sharedOf o.protect)
              (!sharedOf o.protect || f.canWrite)
            tick := k1.tick + 1
            log := ⟨mapCall k1 o fd (newLen o.truncate o.resize (k.size f.obj)), .ok (p * k1.page)⟩ :: k1.log })
          w1.page_pos rfl g3 (by rw [hpg]; exact hm) g2 g4 g5 rfl
          (by dsimp only; rw [h3.size, hpg]; omega)
        rw [show o.offset / k1.page * k1.page + o.offset % k1.page = o.offset by
          rw [hpg]; exact hdm] at this
        exact ⟨by rw [← hpg]; exact this.pages, fun q a b => by rw [← h2.pt]; exact this.free q a b,
          this.mapped, fun q hq => by rw [← h2.pt]; exact this.others q hq, this.maps⟩
      · simp only [mapCall, hpg, h5]

end Vmap
