import Verif.Props.MapMake
import Verif.Proofs.RangeOp
import Verif.Spec.Os
import Verif.Spec.DemoMap
/-
Property theorems C89 and C90: the raw functions of the `os` module on unix.
-/
namespace Vmap
open Kernel Spec

/-- The pages a system call on an aligned range acts on are those that share a byte with it. -/
theorem touches_iff {k : Kernel} (hp : 0 < k.page) {a len : Nat} (ha : a % k.page = 0) (q : Nat) :
    Touches k.page a len q ↔ (a / k.page ≤ q ∧ q < a / k.page + k.pages len) := by
  have h1 := Nat.div_add_mod a k.page
  rw [ha, Nat.add_zero, Nat.mul_comm] at h1
  have e1 : a < (q + 1) * k.page ↔ a / k.page ≤ q := by
    rw [← Nat.div_lt_iff_lt_mul hp]; omega
  have e2 : q * k.page < a + len ↔ q < a / k.page + k.pages len := by
    rw [pages_eq]
    constructor
    · intro h
      apply Nat.lt_of_not_le
      intro hn
      have : (a / k.page + (len + k.page - 1) / k.page) * k.page ≤ q * k.page :=
        Nat.mul_le_mul_right _ hn
      rw [Nat.add_mul] at this
      have h3 := (isRoundUp_div (len := len) hp).2.1
      omega
    · intro h
      by_cases hq : q < a / k.page
      · have : (q + 1) * k.page ≤ a / k.page * k.page := Nat.mul_le_mul_right _ (by omega)
        rw [Nat.add_mul] at this
        omega
      · have : (q - a / k.page + 1) * k.page ≤ len + k.page - 1 :=
          (Nat.le_div_iff_mul_le hp).mp (by omega)
        rw [Nat.add_mul, Nat.sub_mul] at this
        omega
  unfold Touches
  rw [e1, e2]

theorem changes_of_upd {k k' : Kernel} (hp : 0 < k.page) {a len : Nat} (ha : a % k.page = 0)
    {f : Pte → Pte} (hk : k'.pt = updPt k.pt (a / k.page) (k.pages len) f)
    (hm : ∀ q, a / k.page ≤ q → q < a / k.page + k.pages len → ∃ e, k.pt q = some e) :
    ChangesPages k k' a len f := by
  intro q
  rw [touches_iff hp ha]
  refine ⟨fun h => ?_, fun h => ?_⟩
  · obtain ⟨e, he⟩ := hm q h.1 h.2
    refine ⟨e, he, ?_⟩
    rw [hk]; unfold updPt; rw [if_pos h, he]; rfl
  · rw [hk]; unfold updPt; rw [if_neg h]

/-! ### C89: `protect` -/

/-- C89: `os::protect(pg, len, prot)` makes exactly one system call, on exactly the given range.  If
it succeeds, exactly the pages of the range (all of which were mapped) get exactly the access
`prot` names, and keep what they show, their sharing, their private copy and their lock.  If it
fails, the error's operation is `Protect`, it carries the OS error number, and no page changed. -/
theorem C89_protect {t : Target} {k : Kernel} (w : Wf t k) (a len : Nat) (prot : Protect) :
    ∃ k' r, Unix.protect k a len prot = (k', r) ∧ Wf t k' ∧ SameButPages k k' ∧
      OneCall k k' (.mprotect a len (protOf prot)) .protect r ∧
      (r ≠ .ok () → k'.pt = k.pt) ∧
      (r = .ok () → ChangesPages k k' a len (fun e => { e with prot := protOf prot })) := by
  have hb : Unix.protectBits prot = protOf prot := by cases prot <;> rfl
  simp only [Unix.protect, hb]
  rcases mprotect_cases k a len (protOf prot) with ⟨e, he⟩ | ⟨ha, hm, he⟩
  · rw [he]
    exact ⟨_, _, rfl, (onlyRange_logged _ _ _ 0 0).wf w, ⟨rfl, rfl, rfl, rfl, rfl, rfl, rfl, rfl, rfl⟩,
      .inr ⟨e, _, rfl, rfl, rfl, rfl⟩, fun _ => rfl, fun h => by cases h⟩
  · rw [he]
    refine ⟨_, _, rfl, ?_, ⟨rfl, rfl, rfl, rfl, rfl, rfl, rfl, rfl, rfl⟩, .inl ⟨rfl, rfl⟩,
      fun h => absurd rfl h, fun _ => ?_⟩
    · exact w.updPt rfl rfl rfl rfl rfl rfl (fun e => ⟨rfl, rfl, .inl rfl⟩)
    · exact changes_of_upd w.page_pos ha rfl (fun q x y => ⟨_, (hm q x y).choose_spec.1⟩)

/-- C89: after a successful `os::protect`, a byte of the range that could be read before still can
and has the same value; it can be stored to if and only if the new access is `ReadWrite` or
`ReadCopy`. -/
theorem C89_access {t : Target} {k k' : Kernel} (w : Wf t k) {a len : Nat} {prot : Protect}
    (h : Unix.protect k a len prot = (k', .ok ())) {x : Nat} (h1 : a ≤ x) (h2 : x < a + len)
    {b : Byte} (hb : k.load x = .ok b) :
    k'.load x = .ok b ∧ ∀ v, (∃ k'', k'.store x v = .ok k'') ↔ CanStore prot := by
  obtain ⟨k1, r, e, -, s, -, -, hc⟩ := C89_protect w a len prot
  rw [h] at e
  injection e with e1 e2
  subst e1 e2
  have hp := w.page_pos
  have ht : Touches k.page a len (x / k.page) := by
    have := Nat.div_add_mod x k.page
    rw [Nat.mul_comm] at this
    have hl := Nat.mod_lt x hp
    refine ⟨?_, by omega⟩
    rw [Nat.add_mul]; omega
  obtain ⟨e, he, he'⟩ := (hc rfl (x / k.page)).1 ht
  have hbk : k'.backed { e with prot := protOf prot } = k.backed e := by
    simp only [backed, s.page, s.size]
  simp only [Kernel.load, he] at hb
  split at hb
  case isFalse => cases hb
  rename_i hbb
  simp only [Bool.and_eq_true] at hbb
  refine ⟨?_, fun v => ?_⟩
  · simp only [Kernel.load, s.page, he']
    rw [if_pos (by rw [hbk, protOf_r, hbb.2]; rfl)]
    simp only [cell, s.page, s.data] at hb ⊢
    exact hb
  · simp only [Kernel.store, s.page, he', hbk, hbb.2, Bool.and_true]
    by_cases hw : (protOf prot).w = true
    · rw [if_pos hw]
      refine iff_of_true ?_ (by unfold CanStore; cases prot <;> simp [protOf] at hw ⊢)
      split
      · exact ⟨_, rfl⟩
      · split <;> exact ⟨_, rfl⟩
    · rw [if_neg hw]
      refine iff_of_false (by rintro ⟨k'', h⟩; cases h) ?_
      unfold CanStore
      cases prot <;> simp [protOf] at hw ⊢

/-- C89: `os::protect` of an aligned range of mapped pages succeeds when the OS agrees, unless
write access is asked for on a page whose mapping must never be written. -/
theorem C89_protect_ok {t : Target} {k : Kernel} (w : Wf t k) {a len : Nat} {prot : Protect}
    (ha : k.page ∣ a) (hok : (k.oracle k.tick).ok = true)
    (hm : ∀ q, Touches k.page a len q → ∃ e, k.pt q = some e ∧
      (CanStore prot → e.mayWrite = true)) :
    (Unix.protect k a len prot).2 = .ok () := by
  have hb : Unix.protectBits prot = protOf prot := by cases prot <;> rfl
  have ha : a % k.page = 0 := Nat.mod_eq_zero_of_dvd ha
  have hm : ∀ q, a / k.page ≤ q → q < a / k.page + k.pages len → ∃ e, k.pt q = some e ∧
      (CanStore prot → e.mayWrite = true) := fun q x y => hm q ((touches_iff w.page_pos ha q).mpr ⟨x, y⟩)
  have h2 : k.tock.rangeMapped (a / k.page) (k.pages len) = true :=
    rangeMapped_iff.mpr (fun q x y => ⟨_, (hm q x y).choose_spec.1⟩)
  have h3 : k.tock.rangeMay (protOf prot) (a / k.page) (k.pages len) = true := by
    refine rangeMay_iff.mpr (fun q e x y he hw => ?_)
    obtain ⟨e', h1, h2⟩ := hm q x y
    have : k.pt q = some e := he
    rw [this] at h1
    injection h1 with h1
    subst h1
    exact h2 (by unfold CanStore; cases prot <;> simp [protOf] at hw ⊢)
  have h4 : k.now.ok = true := hok
  have : k.mprotectCore a len (protOf prot) = (k.tock.updRange (a / k.page) (k.pages len)
      (fun e => { e with prot := protOf prot }), .ok ()) := by
    simp only [mprotectCore]
    have e1 : k.tock.page = k.page := rfl
    have e2 : k.tock.pages len = k.pages len := rfl
    rw [e1, e2, ha, h2, h3, h4]
    rfl
  simp only [Unix.protect, hb, mprotect, record, this, wrapErr]

-- the second page of a map of two, made executable; the hypotheses of all three theorems
example : ∃ k', Unix.protect (demoMap true true ⟨true, true, false⟩) 4100096 4096 .readExec =
      (k', .ok ()) ∧
    k'.pt 1001 = some ⟨0, 1, ⟨true, false, true⟩, true, true, none, false⟩ ∧
    k'.pt 1000 = some ⟨0, 0, ⟨true, true, false⟩, true, true, none, false⟩ :=
  ⟨_, rfl, rfl, rfl⟩
example : (demoMap true true ⟨true, true, false⟩).load 4100100 = .ok 84 := by
  simp [Kernel.load, demoMap, demo, backed, cell]
example (q : Nat) (h : Touches 4096 4096000 4097 q) :
    ∃ e, (demoMap true true ⟨true, true, false⟩).pt q = some e ∧
      (CanStore .readWrite → e.mayWrite = true) := by
  unfold Touches at h
  refine ⟨⟨0, q - 1000, ⟨true, true, false⟩, true, true, none, false⟩, ?_, fun _ => rfl⟩
  show (if _ then _ else _) = _
  rw [if_pos (by omega)]

/-! ### C90: the other raw functions -/

/-- C90: `os::map_file` makes exactly one system call, with the given file, offset and length.  If
it succeeds, the result is a page-aligned address of fresh pages that show the file from byte
`off` on, with the access and the sharing `prot` names; a shared writable map needs a file
opened for writing.  If it fails, nothing changed, the error's operation is `MapFile` and it
carries the OS error number. -/
theorem C90_map_file {t : Target} {k : Kernel} (w : Wf t k) (fd off len : Nat) (prot : Protect) :
    (∃ k' e err, Unix.mapFile t k fd off len prot = (k', .error err) ∧ err.operation = .mapFile ∧
      err.rawOsError = some e ∧ SameButPages k k' ∧ k'.pt = k.pt) ∨
    (∃ k' f p, Unix.mapFile t k fd off len prot = (k', .ok (p * k.page)) ∧
      k.fds fd = some f ∧ f.canRead = true ∧ (prot = .readWrite → f.canWrite = true) ∧
      k.page ∣ off ∧ 0 < len ∧ SameButPages k k' ∧
      Spec.Pages t k.page (p * k.page) len p (k.pages len) ∧
      (∀ q, p ≤ q → q < p + k.pages len → k.pt q = none ∧
        ∃ mw, k'.pt q = some ⟨f.obj, off / k.page + (q - p), protOf prot, sharedOf prot, mw,
          none, false⟩ ∧ (mw = true ↔ (prot = .readCopy ∨ prot = .readExec) ∨ f.canWrite = true)) ∧
      (∀ q, ¬ (p ≤ q ∧ q < p + k.pages len) → k'.pt q = k.pt q) ∧
      (∀ i, i < len → off + i < k.size f.obj → k'.load (p * k.page + i) = .ok (k.data f.obj (off + i)))) := by
  have hp := w.page_pos
  rcases mapFile_cases t k fd off len prot with ⟨e, he⟩ | ⟨p, f, h1, h2, h3, h4, h5, h6, h7, h8, he⟩
  · exact .inl ⟨_, e, _, he, rfl, rfl, ⟨rfl, rfl, rfl, rfl, rfl, rfl, rfl, rfl, rfl⟩, rfl⟩
  · have hin : ∀ q, p ≤ q → q < p + k.pages len →
        mappedPt k.pt p (k.pages len) f.obj (off / k.page) (protOf prot) (sharedOf prot)
            (!sharedOf prot || f.canWrite) q =
          some ⟨f.obj, off / k.page + (q - p), protOf prot, sharedOf prot,
            (!sharedOf prot || f.canWrite), none, false⟩ := fun q a b => if_pos ⟨a, b⟩
    refine .inr ⟨_, f, p, he, h6, h7, fun h => h8 (by rw [h]; rfl) (by rw [h]; rfl),
      Nat.dvd_of_mod_eq_zero h2, by omega, ⟨rfl, rfl, rfl, rfl, rfl, rfl, rfl, rfl, rfl⟩,
      ?_, fun q a b => ⟨h5 q a b, _, hin q a b, ?_⟩, fun q h => if_neg h, ?_⟩
    · have := pages_of (t := t) (k := k) hp (p := p) (d := 0) (len := len) h3 hp (by omega) (by simpa using h4)
      simpa using this
    · cases prot <;> simp [sharedOf]
    · intro i hi hs
      have hlt := Nat.mod_lt i hp
      have hdm := Nat.div_add_mod i k.page
      rw [Nat.mul_comm] at hdm
      have hod := Nat.div_add_mod off k.page
      rw [h2, Nat.add_zero, Nat.mul_comm] at hod
      have hq : (p * k.page + i) / k.page = p + i / k.page := by
        rw [Nat.mul_comm, Nat.mul_add_div hp]
      have hr : (p * k.page + i) % k.page = i % k.page := by
        rw [Nat.mul_comm, Nat.mul_add_mod]
      have hb : i / k.page < k.pages len := by
        rw [pages_eq, Nat.lt_iff_add_one_le, Nat.le_div_iff_mul_le hp, Nat.add_mul]; omega
      simp only [Kernel.load, hq, hr]
      rw [hin _ (Nat.le_add_right _ _) (Nat.add_lt_add_left hb _)]
      simp only [protOf_r, backed, Bool.true_and, decide_eq_true_eq, cell]
      rw [Nat.add_sub_cancel_left, Nat.add_mul, hod]
      rw [if_pos (by omega), Nat.add_assoc, hdm]

/-- C90: `os::map_anon` makes exactly one system call.  With any access but `ReadOnly`, if it
succeeds the result is a page-aligned address of fresh zeroed pages with the access named; stores
are shared with child processes only for `ReadWrite`.  If it fails, nothing changed, the error's
operation is `MapAnonymous` and it carries the OS error number.  With `ReadOnly` it always
fails. -/
theorem C90_map_anon {t : Target} {k : Kernel} (w : Wf t k) (len : Nat) (prot : Protect) :
    (∃ k' e err, Unix.mapAnon t k len prot = (k', .error err) ∧ err.operation = .mapAnonymous ∧
      err.rawOsError = some e ∧ SameButPages k k' ∧ k'.pt = k.pt) ∨
    (∃ k' p, Unix.mapAnon t k len prot = (k', .ok (p * k.page)) ∧ prot ≠ .readOnly ∧ 0 < len ∧
      k'.page = k.page ∧ k'.fds = k.fds ∧ k'.names = k.names ∧ k'.disk = k.disk ∧
      (∀ ob, ob < k.fresh → k'.data ob = k.data ob ∧ k'.size ob = k.size ob) ∧
      Spec.Pages t k.page (p * k.page) len p (k.pages len) ∧
      (∀ q, p ≤ q → q < p + k.pages len → k.pt q = none ∧
        k'.pt q = some ⟨k.fresh, q - p, protOf prot, anonShared prot, true, none, false⟩) ∧
      (∀ q, ¬ (p ≤ q ∧ q < p + k.pages len) → k'.pt q = k.pt q) ∧
      (∀ i, i < k.pages len * k.page → k'.load (p * k.page + i) = .ok 0)) := by
  have hp := w.page_pos
  rcases mapAnon_cases t k len prot with ⟨e, he⟩ | ⟨p, h1, h2, h3, h4, h5, he⟩
  · exact .inl ⟨_, e, _, he, rfl, rfl, ⟨rfl, rfl, rfl, rfl, rfl, rfl, rfl, rfl, rfl⟩, rfl⟩
  · have hin : ∀ q, p ≤ q → q < p + k.pages len →
        (anonState k p len prot).pt q =
          some ⟨k.fresh, q - p, protOf prot, anonShared prot, true, none, false⟩ := by
      intro q a b
      show (if _ then _ else _) = _
      rw [if_pos ⟨a, b⟩, Nat.zero_add]
    refine .inr ⟨_, p, he, h1, by omega, rfl, rfl, rfl, rfl, ?_, ?_,
      fun q a b => ⟨h5 q a b, hin q a b⟩, fun q h => if_neg h, ?_⟩
    · intro ob hob
      have : ob ≠ k.fresh := by omega
      refine ⟨?_, if_neg this⟩
      funext i
      exact if_neg this
    · have := pages_of (t := t) (k := k) hp (p := p) (d := 0) (len := len) h3 hp (by omega) (by simpa using h4)
      simpa using this
    · intro i hi
      have hdm := Nat.div_add_mod i k.page
      rw [Nat.mul_comm] at hdm
      have hb : i / k.page < k.pages len := (Nat.div_lt_iff_lt_mul hp).mpr hi
      have hq : (p * k.page + i) / k.page = p + i / k.page := by
        rw [Nat.mul_comm, Nat.mul_add_div hp]
      have hpg : (anonState k p len prot).page = k.page := rfl
      have hsz : (anonState k p len prot).size k.fresh = k.pages len * k.page := if_pos rfl
      simp only [Kernel.load, hpg, hq]
      rw [hin _ (Nat.le_add_right _ _) (Nat.add_lt_add_left hb _)]
      simp only [protOf_r, backed, Bool.true_and, decide_eq_true_eq, cell, hsz, hpg]
      rw [Nat.add_sub_cancel_left]
      rw [if_pos (Nat.mul_lt_mul_of_pos_right hb hp)]
      simp [anonState]

/-- C90: `os::unmap(pg, len)` makes exactly one system call, on exactly the given range.  It
succeeds exactly if the range starts at a page boundary and is not empty; then exactly the pages
that share a byte with it are unmapped.  Otherwise nothing changed. -/
theorem C90_unmap {t : Target} {k : Kernel} (w : Wf t k) (a len : Nat) :
    ∃ k' r, Unix.unmap k a len = (k', r) ∧ Wf t k' ∧ SameButPages k k' ∧
      OneCall k k' (.munmap a len) .unmap r ∧
      (r = .ok () ↔ k.page ∣ a ∧ 0 < len) ∧
      (r ≠ .ok () → k'.pt = k.pt) ∧
      (r = .ok () → ∀ q, (Touches k.page a len q → k'.pt q = none) ∧
        (¬ Touches k.page a len q → k'.pt q = k.pt q)) := by
  have hw := w.munmap a len
  by_cases hc : (len = 0 || a % k.page != 0) = true
  · have : k.munmap a len = (k.logged (.munmap a len) (.error EINVAL), .error EINVAL) := by
      simp only [Kernel.munmap, record, munmapCore]
      rw [if_pos (by exact hc)]; rfl
    rw [this] at hw
    simp only [Unix.unmap, this]
    refine ⟨_, _, rfl, hw, ⟨rfl, rfl, rfl, rfl, rfl, rfl, rfl, rfl, rfl⟩,
      .inr ⟨_, _, rfl, rfl, rfl, rfl⟩, ?_, fun _ => rfl, fun h => by cases h⟩
    refine iff_of_false (fun h => by cases h) (fun h => ?_)
    have := Nat.mod_eq_zero_of_dvd h.1
    simp [this] at hc
    omega
  · simp at hc
    have := munmap_eq hc.1 hc.2
    rw [this] at hw
    simp only [Unix.unmap, this]
    refine ⟨_, _, rfl, hw, ⟨rfl, rfl, rfl, rfl, rfl, rfl, rfl, rfl, rfl⟩, .inl ⟨rfl, rfl⟩,
      iff_of_true rfl ⟨Nat.dvd_of_mod_eq_zero hc.2, by omega⟩, fun h => absurd rfl h, fun _ q => ?_⟩
    rw [touches_iff w.page_pos hc.2]
    exact ⟨fun h => if_pos h, fun h => if_neg h⟩

/-- C90: `os::lock` makes exactly one system call, on exactly the given range; if it succeeds,
exactly the pages that share a byte with the range (all mapped) are locked; else the error's
operation is `Lock`, it carries the OS error number, and no page changed. -/
theorem C90_lock {t : Target} {k : Kernel} (w : Wf t k) (a len : Nat) :
    ∃ k' r, Unix.lock k a len = (k', r) ∧ Wf t k' ∧ SameButPages k k' ∧
      OneCall k k' (.mlock a len true) .lock r ∧
      (r ≠ .ok () → k'.pt = k.pt) ∧
      (r = .ok () → ChangesPages k k' a len (fun e => { e with locked := true })) := by
  simp only [Unix.lock]
  rcases mlock_cases k a len true with ⟨e, he⟩ | ⟨ha, hm, he⟩
  · rw [he]
    exact ⟨_, _, rfl, (onlyRange_logged _ _ _ 0 0).wf w, ⟨rfl, rfl, rfl, rfl, rfl, rfl, rfl, rfl, rfl⟩,
      .inr ⟨e, _, rfl, rfl, rfl, rfl⟩, fun _ => rfl, fun h => by cases h⟩
  · rw [he]
    refine ⟨_, _, rfl, ?_, ⟨rfl, rfl, rfl, rfl, rfl, rfl, rfl, rfl, rfl⟩, .inl ⟨rfl, rfl⟩,
      fun h => absurd rfl h, fun _ => changes_of_upd w.page_pos ha rfl hm⟩
    exact w.updPt rfl rfl rfl rfl rfl rfl (fun e => ⟨rfl, rfl, .inl rfl⟩)

/-- C90: `os::unlock` makes exactly one system call, on exactly the given range; if it succeeds,
exactly the pages that share a byte with the range (all mapped) are unlocked; else the error's
operation is `Unlock`, it carries the OS error number, and no page changed. -/
theorem C90_unlock {t : Target} {k : Kernel} (w : Wf t k) (a len : Nat) :
    ∃ k' r, Unix.unlock k a len = (k', r) ∧ Wf t k' ∧ SameButPages k k' ∧
      OneCall k k' (.mlock a len false) .unlock r ∧
      (r ≠ .ok () → k'.pt = k.pt) ∧
      (r = .ok () → ChangesPages k k' a len (fun e => { e with locked := false })) := by
  simp only [Unix.unlock]
  rcases mlock_cases k a len false with ⟨e, he⟩ | ⟨ha, hm, he⟩
  · rw [he]
    exact ⟨_, _, rfl, (onlyRange_logged _ _ _ 0 0).wf w, ⟨rfl, rfl, rfl, rfl, rfl, rfl, rfl, rfl, rfl⟩,
      .inr ⟨e, _, rfl, rfl, rfl, rfl⟩, fun _ => rfl, fun h => by cases h⟩
  · rw [he]
    refine ⟨_, _, rfl, ?_, ⟨rfl, rfl, rfl, rfl, rfl, rfl, rfl, rfl, rfl⟩, .inl ⟨rfl, rfl⟩,
      fun h => absurd rfl h, fun _ => changes_of_upd w.page_pos ha rfl hm⟩
    exact w.updPt rfl rfl rfl rfl rfl rfl (fun e => ⟨rfl, rfl, .inl rfl⟩)

/-- C90: `os::advise` makes exactly one system call, on exactly the given range, with the hint
named.  Only `WillNotNeed` changes anything: private copies of pages in the range are dropped. -/
theorem C90_advise {t : Target} {k : Kernel} (w : Wf t k) (a len : Nat) (adv : Advise) :
    ∃ k' r, Unix.advise k a len adv = (k', r) ∧ Wf t k' ∧ SameButPages k k' ∧
      OneCall k k' (.madvise a len (hintOf adv)) .advise r ∧
      (r ≠ .ok () ∨ adv ≠ .willNotNeed → k'.pt = k.pt) ∧
      (r = .ok () → adv = .willNotNeed →
        ChangesPages k k' a len (fun e => { e with copy := none })) := by
  have hb : Unix.adviseBits adv = hintOf adv := by cases adv <;> rfl
  have hd : hintOf adv = .dontneed ↔ adv = .willNotNeed := by cases adv <;> simp [hintOf]
  simp only [Unix.advise, hb]
  rcases madvise_cases k a len (hintOf adv) with ⟨e, he⟩ | ⟨ha, hm, he⟩
  · rw [he]
    exact ⟨_, _, rfl, (onlyRange_logged _ _ _ 0 0).wf w, ⟨rfl, rfl, rfl, rfl, rfl, rfl, rfl, rfl, rfl⟩,
      .inr ⟨e, _, rfl, rfl, rfl, rfl⟩, fun _ => rfl, fun h => by cases h⟩
  · rw [he]
    by_cases h : adv = .willNotNeed
    · rw [if_pos (hd.mpr h)]
      refine ⟨_, _, rfl, ?_, ⟨rfl, rfl, rfl, rfl, rfl, rfl, rfl, rfl, rfl⟩, .inl ⟨rfl, rfl⟩,
        fun h' => ?_, fun _ _ => changes_of_upd w.page_pos ha rfl hm⟩
      · exact w.updPt rfl rfl rfl rfl rfl rfl (fun e => ⟨rfl, rfl, .inr rfl⟩)
      · rcases h' with h' | h'
        · exact absurd rfl h'
        · exact absurd h h'
    · rw [if_neg (fun h' => h (hd.mp h'))]
      exact ⟨_, _, rfl, (onlyRange_logged k (.madvise a len (hintOf adv)) (.ok 0) 0 0).wf w, ⟨rfl, rfl, rfl, rfl, rfl, rfl, rfl, rfl, rfl⟩, .inl ⟨rfl, rfl⟩,
        fun _ => rfl, fun _ h' => absurd h' h⟩

/-- C90: `os::flush` makes exactly one system call, on exactly the given range, waiting for the
disk exactly if the mode is `Sync`.  Then, if it succeeds, the disk holds the current bytes of
every shared page in the range; no other byte of the disk changes, and no memory. -/
theorem C90_flush {t : Target} {k : Kernel} (w : Wf t k) (a len : Nat) (mode : FlushMode) :
    ∃ k' r, Unix.flush k a len mode = (k', r) ∧ Wf t k' ∧ OnlyRange k k' 0 0 ∧ k'.pt = k.pt ∧
      OneCall k k' (.msync a len (mode = .sync)) .flush r ∧
      ∀ o i, (r = .ok () ∧ mode = .sync ∧ (∃ q e, Touches k.page a len q ∧ k.pt q = some e ∧
          e.shared = true ∧ e.obj = o ∧ e.idx = i / k.page) → k'.disk o i = k.data o i) ∧
        (¬ (r = .ok () ∧ mode = .sync ∧ (∃ q e, Touches k.page a len q ∧ k.pt q = some e ∧
          e.shared = true ∧ e.obj = o ∧ e.idx = i / k.page)) → k'.disk o i = k.disk o i) := by
  have hs : Unix.flush k a len mode = wrapErr .flush (k.msync a len (mode = .sync)) := by
    cases mode <;> rfl
  rw [hs]
  rcases msync_cases k a len (mode = .sync) with ⟨e, he⟩ | ⟨ha, -, disk, he, hd⟩
  · rw [he]
    refine ⟨_, _, rfl, (onlyRange_logged _ _ _ 0 0).wf w, onlyRange_logged _ _ _ _ _, rfl,
      .inr ⟨e, _, rfl, rfl, rfl, rfl⟩, fun o i => ⟨fun h => (by cases h.1), fun _ => rfl⟩⟩
  · rw [he]
    have ho : OnlyRange k { k.logged (.msync a len (mode = .sync)) (.ok 0) with disk := disk } 0 0 :=
      ⟨rfl, rfl, rfl, rfl, rfl, rfl, rfl, rfl, fun _ _ => rfl,
        fun q e he => ⟨e, he, rfl, rfl, rfl, rfl, .inl rfl⟩, fun _ h => h⟩
    refine ⟨_, _, rfl, ho.wf w, ho, rfl, .inl ⟨rfl, rfl⟩, fun o i => ⟨?_, ?_⟩⟩
    · rintro ⟨-, hm, q, e, hq, h1, h2, h3, h4⟩
      rw [touches_iff w.page_pos ha] at hq
      exact (hd o i).2.1 (by simp [hm]) ⟨q, e, hq.1, hq.2, h1, h2, h3, h4⟩
    · intro h
      apply (hd o i).2.2
      rintro ⟨hm, q, e, x, y, h1, h2, h3, h4⟩
      exact h ⟨rfl, by simpa using hm, q, e, (touches_iff w.page_pos ha q).mpr ⟨x, y⟩, h1, h2, h3, h4⟩

example : Wf ⟨.w64, true⟩ (demo 0) ∧
    ∃ k', Unix.mapFile ⟨.w64, true⟩ (demo 0) 3 4096 5000 .readExec = (k', .ok 4096000) ∧
    k'.pt 1001 = some ⟨0, 2, ⟨true, false, true⟩, false, true, none, false⟩ := ⟨demo_wf 0, _, rfl, rfl⟩
-- a file that was not opened for writing cannot be mapped shared and writable
example : Wf ⟨.w64, true⟩ (demo 0) ∧
    ∃ k' err, Unix.mapFile ⟨.w64, true⟩ (demo 0) 4 0 5000 .readWrite = (k', .error err) ∧
    err.rawOsError = some EACCES := ⟨demo_wf 0, _, _, rfl, rfl⟩
example : Wf ⟨.w64, true⟩ (demo 0) ∧
    ∃ k', Unix.mapAnon ⟨.w64, true⟩ (demo 0) 5000 .readCopy = (k', .ok 4096000) ∧
    k'.pt 1001 = some ⟨1, 1, ⟨true, true, false⟩, false, true, none, false⟩ := ⟨demo_wf 0, _, rfl, rfl⟩
example : ∃ k', Unix.unmap (demoMap true true ⟨true, true, false⟩) 4096000 4096 = (k', .ok ()) ∧
    k'.pt 1000 = none ∧ (k'.pt 1001).isSome := ⟨_, rfl, rfl, rfl⟩
example : ∃ k', Unix.lock (demoMap true true ⟨true, true, false⟩) 4096000 4096 = (k', .ok ()) ∧
    (k'.pt 1000).map Pte.locked = some true ∧ (k'.pt 1001).map Pte.locked = some false :=
  ⟨_, rfl, rfl, rfl⟩
example : ∃ k', Unix.flush (demoMap true true ⟨true, true, false⟩) 4096000 8192 .sync = (k', .ok ()) ∧
    (demoMap true true ⟨true, true, false⟩).disk 0 3 = 0 ∧ k'.disk 0 3 = 3 := by
  refine ⟨_, rfl, rfl, ?_⟩
  decide

end Vmap
