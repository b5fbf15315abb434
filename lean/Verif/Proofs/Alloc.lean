import Verif.Proofs.Map
import Verif.Proofs.Sys
/- Helper lemmas: anonymous maps. -/
namespace Vmap
open Kernel Spec

theorem mapAnonBits_eq (prot : Protect) :
    (Unix.mapAnonBits prot).1 = protOf prot ∧ (Unix.mapAnonBits prot).2.fixed = false ∧
      (prot ≠ .readOnly → (Unix.mapAnonBits prot).2.shared = anonShared prot ∧
        (Unix.mapAnonBits prot).2.anon = true ∧
        (Unix.mapAnonBits prot).2.priv = !anonShared prot) ∧
      (prot = .readOnly → (Unix.mapAnonBits prot).2.anon = false) := by
  cases prot with
  | readOnly => exact ⟨rfl, rfl, fun h => absurd rfl h, fun _ => rfl⟩
  | readWrite => exact ⟨rfl, rfl, fun _ => ⟨rfl, rfl, rfl⟩, fun h => by cases h⟩
  | readCopy => exact ⟨rfl, rfl, fun _ => ⟨rfl, rfl, rfl⟩, fun h => by cases h⟩
  | readExec => exact ⟨rfl, rfl, fun _ => ⟨rfl, rfl, rfl⟩, fun h => by cases h⟩

/-- The system call of an anonymous mapping. -/
def anonCall (len : Nat) (prot : Protect) : Call :=
  .mmap 0 len (protOf prot) (Unix.mapAnonBits prot).2 none 0

/-- The state after an anonymous mapping of `len` bytes at page `p`. -/
def anonState (k : Kernel) (p len : Nat) (prot : Protect) : Kernel :=
  { k with
    pt := mappedPt k.pt p (k.pages len) k.fresh 0 (protOf prot) (anonShared prot) true
    data := fun o i => if o = k.fresh then 0 else k.data o i
    size := fun o => if o = k.fresh then k.pages len * k.page else k.size o
    fresh := k.fresh + 1
    tick := k.tick + 1
    log := ⟨anonCall len prot, .ok (p * k.page)⟩ :: k.log }

theorem mapAnon_cases (t : Target) (k : Kernel) (len : Nat) (prot : Protect) :
    (∃ e, Unix.mapAnon t k len prot =
      (k.logged (anonCall len prot) (.error e), .error (Error.lastOsError .mapAnonymous e))) ∨
    (∃ p, prot ≠ .readOnly ∧ len ≠ 0 ∧ p ≠ 0 ∧ (p + k.pages len) * k.page < t.lim ∧
      (∀ q, p ≤ q → q < p + k.pages len → k.pt q = none) ∧
      Unix.mapAnon t k len prot = (anonState k p len prot, .ok (p * k.page))) := by
  obtain ⟨h1, h2, h3, h4⟩ := mapAnonBits_eq prot
  simp only [Unix.mapAnon, h1]
  rcases mmap_cases t k 0 len (protOf prot) (Unix.mapAnonBits prot).2 none 0 with
    ⟨pt', e, he, g2, -⟩ | ⟨p, g1, -, -, g4, g5, -, g7, g8⟩
  · rw [he, g2 h2]
    exact .inl ⟨e, rfl⟩
  · rcases g8 with ⟨ha, he⟩ | ⟨-, d, f, hd, -⟩
    · have hne : prot ≠ .readOnly := fun h => by rw [h4 h] at ha; cases ha
      obtain ⟨h5, -, -⟩ := h3 hne
      refine .inr ⟨p, hne, g1, g4, g5, g7 h2, ?_⟩
      rw [he, h5]; rfl
    · cases hd

/-- With room, an anonymous mapping (other than read-only) succeeds. -/
theorem mapAnon_room {t : Target} {k : Kernel} {len : Nat} {prot : Protect} (hne : prot ≠ .readOnly)
    (hl : len ≠ 0) (r : Room t k len) :
    Unix.mapAnon t k len prot =
      (anonState k (k.oracle k.tick).page len prot, .ok ((k.oracle k.tick).page * k.page)) := by
  obtain ⟨h1, h2, h3, -⟩ := mapAnonBits_eq prot
  obtain ⟨h4, h5, h6⟩ := h3 hne
  have hlp := t.lim_pos
  have core : k.mmapCore t 0 len (protOf prot) (Unix.mapAnonBits prot).2 none 0 =
      ((k.tock.newObj (k.pages len * k.page)).mapRange (k.oracle k.tick).page (k.pages len)
        k.fresh 0 (protOf prot) (anonShared prot) true, .ok ((k.oracle k.tick).page * k.page)) := by
    simp only [mmapCore]
    rw [if_neg (by
      rw [h4, h6]
      have := t.lim_cases
      simp [hl, tock]
      omega)]
    simp only [mmapSource, h5, if_true]
    rw [h2]
    simp only [Bool.false_eq_true, if_false]
    simp only [mmapAt]
    rw [if_neg (by
      have := r.fits
      have e : (k.now.page + k.tock.pages len) * k.tock.page =
        ((k.oracle k.tick).page + (len + k.page - 1) / k.page) * k.page := rfl
      rw [e]
      have : k.now.page = (k.oracle k.tick).page := rfl
      simp [this, r.pos]
      omega)]
    have free : k.tock.rangeFree k.now.page (k.tock.pages len) = true :=
      rangeFree_iff.mpr r.free
    rw [if_neg (by simp [free])]
    have : k.now.ok = true := r.ok
    rw [if_neg (by simp [this])]
    simp only [h4]
    rfl
  simp only [Unix.mapAnon, h1, mmap, record, core, wrapErr]
  rfl

/-- The length `alloc` computes. -/
def allocLenOf (u d : Nat) : Extent → Nat
  | .endOf => u - d
  | .exact l => l
  | .max l => l
  | .min l => (d + l + u - 1) / u * u - d

theorem allocLen_eq {t : Target} {k : Kernel} (w : Wf t k) {e : Extent} {d : Nat}
    (hd : d < k.page) (hf : AllocFits t k.page d e) :
    Options.allocLen t k e d = .ok (allocLenOf k.page d e) ∧
      AllocLen k.page d e (allocLenOf k.page d e) ∧ d + allocLenOf k.page d e < t.lim := by
  have h4 := w.four_page_le
  have hpp := w.page_pos
  obtain ⟨s, hs, hs2⟩ := w.page
  have rnd : ∀ x, x + k.page < t.lim →
      (Size.alloc k).round t x = .ok ((x + k.page - 1) / k.page * k.page) := by
    intro x hx
    rw [sizeAlloc_eq, hs]
    rw [hs] at hx
    exact round_eq (by omega) hx
  cases e with
  | endOf =>
    have hq : (d + 1 + k.page - 1) / k.page * k.page = k.page := by
      have : (d + 1 + k.page - 1) / k.page = 1 := by
        apply Nat.div_eq_of_lt_le <;> omega
      rw [this, Nat.one_mul]
    refine ⟨?_, ?_, ?_⟩
    · simp only [Options.allocLen, bind, Except.bind]
      rw [addU_ok (by omega)]
      simp only
      rw [rnd _ (by omega), hq]
      simp only
      rw [subU_ok (by omega)]; rfl
    · simp only [AllocLen, allocLenOf]; omega
    · simp only [allocLenOf]; omega
  | exact l => exact ⟨rfl, rfl, hf⟩
  | max l => exact ⟨rfl, rfl, hf⟩
  | min l =>
    have hf : d + l + k.page < t.lim := hf
    have hr := isRoundUp_div (len := d + l) hpp
    have hlt := Nat.div_mul_le_self (d + l + k.page - 1) k.page
    have hle := hr.2.1
    refine ⟨?_, ?_, ?_⟩
    · simp only [Options.allocLen, bind, Except.bind]
      rw [addU_ok (by omega)]
      simp only
      rw [rnd _ hf]
      simp only
      rw [subU_ok (by omega)]; rfl
    · simp only [AllocLen, allocLenOf]
      refine ⟨by omega, ?_, by omega⟩
      rw [show d + ((d + l + k.page - 1) / k.page * k.page - d) =
        (d + l + k.page - 1) / k.page * k.page by omega]
      exact Nat.dvd_mul_left _ _
    · simp only [allocLenOf]; omega

theorem anonState_wf {t : Target} {k : Kernel} (w : Wf t k) {p len : Nat} {prot : Protect}
    (hp : p ≠ 0) (hf : (p + k.pages len) * k.page < t.lim) : Wf t (anonState k p len prot) :=
  w.mapped (k' := anonState k p len prot) rfl rfl rfl rfl (Nat.le_succ _) rfl
    (Nat.lt_succ_self _) w.fresh_ne hp hf

/-- `alloc` when its sizes fit. -/
theorem alloc_cases {t : Target} {k : Kernel} (w : Wf t k) (o : Options)
    (hf : AllocFits t k.page (o.offset % k.page) o.len) :
    ∃ len, AllocLen k.page (o.offset % k.page) o.len len ∧
      ((∃ e, o.alloc t k = .ok (k.logged (anonCall (o.offset % k.page + len) o.protect) (.error e),
          .error (Error.lastOsError .mapAnonymous e))) ∨
       (∃ p k', o.protect ≠ .readOnly ∧ p ≠ 0 ∧ len + o.offset % k.page ≠ 0 ∧
          (p + k.pages (len + o.offset % k.page)) * k.page < t.lim ∧
          k' = anonState k p (o.offset % k.page + len) o.protect ∧ Wf t k' ∧
          Created t k k' (p * k.page + o.offset % k.page) len k.fresh (o.offset % k.page)
            (anonShared o.protect) true (protOf o.protect) p (k.pages (len + o.offset % k.page)) ∧
          o.alloc t k = .ok (k', .ok ⟨p * k.page + o.offset % k.page, len⟩))) ∧
      (o.protect ≠ .readOnly → o.offset % k.page + len ≠ 0 →
        Room t k (o.offset % k.page + len) →
        ∃ k' m, o.alloc t k = .ok (k', .ok m)) := by
  have hpp := w.page_pos
  have hd : o.offset % k.page < k.page := Nat.mod_lt _ hpp
  obtain ⟨h1, h2, h3⟩ := allocLen_eq w hd hf
  have hoff : (Size.page k).offset t o.offset = .ok (o.offset % k.page) := by
    obtain ⟨s, hs, hs2⟩ := w.page
    rw [sizePage_eq, hs]; exact offset_eq
  generalize o.offset % k.page = d at *
  generalize allocLenOf k.page d o.len = len at *
  have step : o.alloc t k = match Unix.mapAnon t k (d + len) o.protect with
      | (k, .error e) => .ok (k, .error e)
      | (k, .ok ptr) => .ok (k, .ok (MapMut.fromPtr (ptrAdd t ptr d) len)) := by
    simp only [Options.alloc, bind, Except.bind, hoff, h1]
    rw [addU_ok h3]
    simp only
    split <;> rename_i hx <;> rw [hx] <;> rfl
  refine ⟨len, h2, ?_, ?_⟩
  · rcases mapAnon_cases t k (d + len) o.protect with ⟨e, he⟩ | ⟨p, g1, g2, g3, g4, g5, he⟩
    · exact .inl ⟨e, by rw [step, he]⟩
    · have hcomm : d + len = len + d := Nat.add_comm _ _
      refine .inr ⟨p, _, g1, g3, by omega, by rw [← hcomm]; exact g4, rfl,
        anonState_wf w g3 g4, ?_, ?_⟩
      · rw [hcomm] at g4 g5 ⊢
        have := created_of_mapped (t := t) (k := k) (k' := anonState k p (len + d) o.protect)
          (idx := 0) (d := d) (len := len) (prot := protOf o.protect)
          (sh := anonShared o.protect) (mw := true) (o := k.fresh) hpp rfl g3 hd (by omega) g4 g5
          rfl (by
            have := pages_le hpp (len + d)
            simp only [anonState, if_true]
            omega)
        rw [Nat.zero_mul, Nat.zero_add] at this
        exact this
      · rw [step, he]
        have hpa : ptrAdd t (p * k.page) d = p * k.page + d := by
          apply Nat.mod_eq_of_lt
          have := pages_le hpp (d + len)
          rw [Nat.add_mul] at g4
          omega
        simp only [hpa, MapMut.fromPtr]
  · intro a b c
    rw [step, mapAnon_room a b c]
    exact ⟨_, _, rfl⟩

end Vmap
