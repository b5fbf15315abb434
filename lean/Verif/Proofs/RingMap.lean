import Verif.Model.RingMap
import Verif.Proofs.KernelWf
import Verif.Spec.RingMap
/- Helper lemmas: all outcomes of posix `map_ring`. -/
namespace Vmap
namespace Posix
open Kernel

theorem mulU_ok {t : Target} {a b : Nat} (h : a * b < t.lim) : mulU t a b = .ok (a * b) := by
  simp [mulU, mulL, h]

/-- State after a successful `tmp_open`. -/
def opened (k : Kernel) (len : Nat) : Kernel :=
  { k with
    data := fun o i => if o = k.fresh then 0 else k.data o i
    size := fun o => if o = k.fresh then len else k.size o
    fresh := k.fresh + 1
    fds := fun d => if d = k.nextFd then some ⟨k.fresh, true, true⟩ else k.fds d
    nextFd := k.nextFd + 1
    tick := k.tick + 2
    log := ⟨.ftruncate k.nextFd len, .ok 0⟩ :: ⟨.memfd, .ok k.nextFd⟩ :: k.log }

theorem tmpOpen_cases {t : Target} {k : Kernel} (h : Wf t k) (len : Nat) :
    (∃ k' err l, tmpOpen t k len = (k', .error err) ∧ SameWorld k k' ∧ Wf t k' ∧
      k'.log = l ++ k.log ∧ Spec.RingTrace len l err) ∨
    (len < t.lim / 2 ∧ tmpOpen t k len = (opened k len, .ok k.nextFd) ∧
      Wf t (opened k len)) := by
  have hnone : k.fds k.nextFd = none := by
    cases hn : k.fds k.nextFd with
    | none => rfl
    | some f => have := (h.fds _ _ hn).2; omega
  rcases memfd_cases k with ⟨e, he⟩ | he
  · refine .inl ⟨{ k with tick := k.tick + 1, log := ⟨.memfd, .error e⟩ :: k.log }, _,
      [⟨.memfd, .error e⟩], ?_, ?_, ?_, ?_, .memfd e⟩
    · simp only [tmpOpen, memfdOpen, he, wrapErr]; rfl
    · constructor
      · constructor <;> first | rfl | (intros; rfl) | exact Nat.le_refl _
      · rfl
      · rfl
    · exact h.sub rfl (fun _ _ h => h) (fun _ _ h => h) (fun _ _ h => h) (Nat.le_refl _)
        (Nat.le_refl _)
    · rfl
  · have w1 : Wf t k.memfdCreate.1 := h.memfd
    rw [he] at w1
    dsimp only at w1
    rcases ftruncate_cases t k.memfdCreate.1 k.nextFd len with ⟨e, he2⟩ | ⟨f, hf, hw, hl, he2⟩
    · rw [he] at he2
      dsimp only at he2
      refine .inl ⟨(k.memfdCreate.1.ftruncate t k.nextFd len).1.close k.nextFd, _,
        [⟨.close k.nextFd, .ok 0⟩, ⟨.ftruncate k.nextFd len, .error e⟩,
        ⟨.memfd, .ok k.nextFd⟩], ?_, ?_, ?_, ?_, .sizing k.nextFd e⟩
      · simp only [tmpOpen, memfdOpen, he, wrapErr, he2]; rfl
      · rw [he]
        dsimp only
        rw [he2]
        constructor
        · refine ⟨rfl, ?_, ?_, fun _ _ => rfl, rfl, Nat.le_succ _, Nat.le_succ _, rfl⟩
          · intro o ho; funext i
            simp only [Kernel.close, tock]
            rw [if_neg (by omega)]
          · intro o ho
            simp only [Kernel.close, tock]
            rw [if_neg (by omega)]
        · rfl
        · funext d
          simp only [Kernel.close, tock]
          by_cases hd : d = k.nextFd
          · rw [if_pos hd, hd, hnone]
          · rw [if_neg hd, if_neg hd]
      · exact (h.memfd.ftruncate _ _).close _
      · rw [he]
        dsimp only
        rw [he2]
        rfl
    · rw [he] at he2 hf
      dsimp only at he2 hf
      rw [if_pos rfl] at hf
      injection hf with hf
      subst hf
      have heq : tmpOpen t k len = (opened k len, .ok k.nextFd) := by
        simp only [tmpOpen, memfdOpen, he, wrapErr, he2]
        unfold opened
        congr 2
        · funext o i
          by_cases ho : o = k.fresh
          · simp [ho]
          · simp [ho]
        · funext o
          by_cases ho : o = k.fresh
          · simp [ho]
          · simp [ho]
      refine .inr ⟨hl, heq, ?_⟩
      have := h.memfd.ftruncate k.nextFd len
      rw [he] at this
      dsimp only at this
      rw [he2] at this
      exact this.sub rfl (fun _ _ h => h) (fun _ _ h => h) (fun _ _ h => h) (Nat.le_refl _)
        (Nat.le_refl _)

theorem sameWorld_opened_close {t : Target} {k k' : Kernel} (h : Wf t k) {len : Nat}
    (hk : KeepsObjects (opened k len) k') (hpt : k'.pt = k.pt)
    (hfds : k'.fds = (opened k len).fds) : SameWorld k (k'.close k.nextFd) := by
  have hnone : k.fds k.nextFd = none := by
    cases hn : k.fds k.nextFd with
    | none => rfl
    | some f => have := (h.fds _ _ hn).2; omega
  have hf : k.fresh + 1 ≤ k'.fresh := hk.fresh
  have hd : k.nextFd + 1 ≤ k'.nextFd := hk.nextFd
  constructor
  · refine ⟨hk.page, ?_, ?_, ?_, hk.names, ?_, ?_, hk.oracle⟩
    · intro o ho
      have := hk.data o (Nat.lt_succ_of_lt ho)
      simp only [Kernel.close, tock]
      rw [this]
      funext i
      simp only [opened]
      rw [if_neg (by omega)]
    · intro o ho
      have := hk.size o (Nat.lt_succ_of_lt ho)
      simp only [Kernel.close, tock]
      rw [this]
      simp only [opened]
      rw [if_neg (by omega)]
    · intro o ho
      exact hk.disk o (Nat.lt_succ_of_lt ho)
    · simp only [Kernel.close, tock]; omega
    · simp only [Kernel.close, tock]; omega
  · exact hpt
  · funext d
    simp only [Kernel.close, tock]
    rw [hfds]
    simp only [opened]
    by_cases hd : d = k.nextFd
    · rw [if_pos hd, hd, hnone]
    · rw [if_neg hd, if_neg hd]

theorem mappedPt_out {pt p n o idx prot sh mw q} (h : ¬ (p ≤ q ∧ q < p + n)) :
    mappedPt pt p n o idx prot sh mw q = pt q := if_neg h

theorem mappedPt_in {pt p n o idx prot sh mw q} (h : p ≤ q ∧ q < p + n) :
    mappedPt pt p n o idx prot sh mw q = some ⟨o, idx + (q - p), prot, sh, mw, none, false⟩ :=
  if_pos h

/-- The page table of a finished ring mapping at page `p`, `n` pages per half, object `o`. -/
def ringPt (pt : Nat → Option Pte) (p n : Nat) (o : Obj) : Nat → Option Pte := fun q =>
  if p ≤ q ∧ q < p + 2 * n then
    some { obj := o, idx := (q - p) % n, prot := Unix.protRW, shared := true,
           mayWrite := true, copy := none, locked := false }
  else pt q

/-- All outcomes of `map_ring` for whole pages. -/
theorem mapRing_cases {t : Target} {k : Kernel} (h : Wf t k) {len : Nat} (hlen : k.page ∣ len) :
    (∃ k' err l, mapRing t k len = .ok (k', .error err) ∧ SameWorld k k' ∧ Wf t k' ∧
      k'.log = l ++ k.log ∧ Spec.RingTrace len l err) ∨
    (∃ k' p n, mapRing t k len = .ok (k', .ok (p * k.page)) ∧ Wf t k' ∧
      KeepsObjects k k' ∧ k'.fds = k.fds ∧
      len = n * k.page ∧ 0 < n ∧ p ≠ 0 ∧ (p + 2 * n) * k.page ≤ t.lim ∧
      (∀ q, p ≤ q → q < p + 2 * n → k.pt q = none) ∧
      k'.pt = ringPt k.pt p n k.fresh ∧ k.fresh < k'.fresh ∧
      k'.size k.fresh = len ∧ (∀ i, k'.data k.fresh i = 0)) := by
  have hpp := h.page_pos
  rcases tmpOpen_cases h len with ⟨k', err, l, he, h1, h2, h3, h4⟩ | ⟨hl, he, w1⟩
  · refine .inl ⟨k', err, l, ?_, h1, h2, h3, h4⟩
    simp only [mapRing, he]; rfl
  · have hmul : mulU t len 2 = .ok (len * 2) := mulU_ok (by omega)
    have hmul2 : mulU t 2 len = .ok (2 * len) := mulU_ok (by omega)
    have hopen : (opened k len).page = k.page := rfl
    -- reservation
    rcases mmap_cases t (opened k len) 0 (len * 2) Unix.protRW { priv := true, anon := true }
        none 0 with
      ⟨pt', e, e1, e2, -⟩ | ⟨p, e1, -, -, e4, e5, -, e7, e8⟩
    · -- failed
      have e2 := e2 rfl
      have hk : KeepsObjects (opened k len)
          ((opened k len).mmap t 0 (len * 2) Unix.protRW { priv := true, anon := true } none 0).1 := by
        rw [e1]
        constructor <;> first | rfl | (intros; rfl) | exact Nat.le_refl _
      refine .inl ⟨(((opened k len).mmap t 0 (len * 2) Unix.protRW
          { priv := true, anon := true } none 0).1).close k.nextFd,
        ⟨.system (.os e), .ringAllocate⟩,
        [⟨.close k.nextFd, .ok 0⟩,
         ⟨.mmap 0 (2 * len) Unix.protRW { priv := true, anon := true } none 0, .error e⟩,
         ⟨.ftruncate k.nextFd len, .ok 0⟩, ⟨.memfd, .ok k.nextFd⟩],
        ?_, ?_, (w1.mmap _ _ _ _ _ _).close _, ?_, .reserve _ _ _ _ _ _⟩
      · simp only [mapRing, he, wrapFd, hmul, bind, Except.bind, map, e1, wrapErr, pure,
          Except.pure, Error.lastOsError, Error.system]
      · refine sameWorld_opened_close h hk ?_ ?_
        · rw [e1]; exact e2
        · rw [e1]
      · rw [e1, Nat.mul_comm 2 len]; rfl
    · -- reserved at page p
      have hn : ∃ n, len = n * k.page := by
        obtain ⟨n, rfl⟩ := hlen; exact ⟨n, Nat.mul_comm _ _⟩
      obtain ⟨n, hn⟩ := hn
      have hn0 : 0 < n := by
        rcases Nat.eq_zero_or_pos n with h0 | h0
        · subst h0; rw [Nat.zero_mul] at hn; omega
        · exact h0
      have pg1 : ∀ k' : Kernel, k'.page = k.page → k'.pages len = n := by
        intro k' hk'
        have := pages_mul (k := k') (by rw [hk']; exact hpp) (len := len) (by rw [hk']; exact hlen)
        rw [hk', hn] at this
        rw [hn]
        exact Nat.eq_of_mul_eq_mul_right hpp this
      have pg2 : ∀ k' : Kernel, k'.page = k.page → k'.pages (len * 2) = 2 * n := by
        intro k' hk'
        have := pages_mul (k := k') (by rw [hk']; exact hpp) (len := len * 2)
          (by rw [hk']; exact Nat.dvd_mul_right_of_dvd hlen 2)
        rw [hk', hn] at this
        rw [hn]
        have e : n * k.page * 2 = (2 * n) * k.page := by
          rw [Nat.mul_comm (n * k.page) 2, Nat.mul_assoc]
        rw [e] at this
        rw [e]
        exact Nat.eq_of_mul_eq_mul_right hpp this
      rw [pg2 _ hopen] at e5 e7
      rw [hopen] at e5
      have hfree := e7 rfl
      have e8 := e8.resolve_right (fun h => by cases h.1)
      have e8 := e8.2
      rw [pg2 _ hopen] at e8
      -- the state after the reservation
      generalize hk2 : ((opened k len).mmap t 0 (len * 2) Unix.protRW
        { priv := true, anon := true } none 0).1 = k2 at *
      have w2 : Wf t k2 := by rw [← hk2]; exact w1.mmap _ _ _ _ _ _
      rw [e8] at hk2
      dsimp only at hk2
      have k2page : k2.page = k.page := by rw [← hk2]; rfl
      have k2keep : KeepsObjects (opened k len) k2 := by
        rw [← hk2]
        refine ⟨rfl, ?_, ?_, fun _ _ => rfl, rfl, Nat.le_succ _, Nat.le_refl _, rfl⟩
        · intro o ho; funext i; dsimp only; rw [if_neg (by omega)]
        · intro o ho; dsimp only; rw [if_neg (by omega)]
      have k2fds : k2.fds = (opened k len).fds := by rw [← hk2]
      have k2pt : ∀ q, ¬ (p ≤ q ∧ q < p + 2 * n) → k2.pt q = k.pt q := by
        intro q hq; rw [← hk2]; exact mappedPt_out hq
      have k2log : k2.log = ⟨.mmap 0 (2 * len) Unix.protRW { priv := true, anon := true } none 0,
          .ok (p * k.page)⟩ :: ⟨.ftruncate k.nextFd len, .ok 0⟩ ::
          ⟨.memfd, .ok k.nextFd⟩ :: k.log := by
        rw [← hk2, Nat.mul_comm 2 len]; rfl
      have k2fd : k2.fds k.nextFd = some ⟨k.fresh, true, true⟩ := by
        rw [k2fds]; simp [opened]
      have emap : map t (opened k len) .ringAllocate 0 (len * 2)
          { priv := true, anon := true } none = (k2, .ok (p * k.page)) := by
        simp only [map, e8, wrapErr, hk2]; rw [hopen]
      have hdiv : p * k.page / k2.page = p := by
        rw [k2page]; exact Nat.mul_div_cancel _ hpp
      have hmod : ∀ k' : Kernel, k'.page = k.page → p * k.page % k'.page = 0 := by
        intro k' hk'; rw [hk']; exact Nat.mul_mod_left _ _
      have h2len : 2 * len ≠ 0 := by
        have := Nat.mul_pos hn0 hpp; omega
      -- releasing the range gives back the old world
      have undo : ∀ k3 : Kernel, KeepsObjects (opened k len) k3 →
          k3.fds = (opened k len).fds → k3.page = k.page →
          (∀ q, ¬ (p ≤ q ∧ q < p + 2 * n) → k3.pt q = k.pt q) → Wf t k3 →
          ∃ k4, unmapRing t k3 (p * k.page) len = .ok (k4, .ok ()) ∧
            SameWorld k (k4.close k.nextFd) ∧ Wf t (k4.close k.nextFd) ∧
            (k4.close k.nextFd).log = ⟨.close k.nextFd, .ok 0⟩ ::
              ⟨.munmap (p * k.page) (2 * len), .ok 0⟩ :: k3.log := by
        intro k3 a1 a2 a3 a4 a5
        have hm := munmap_eq (k := k3) (addr := p * k.page) (len := 2 * len) h2len (hmod k3 a3)
        refine ⟨(k3.munmap (p * k.page) (2 * len)).1, ?_, ?_, ?_, ?_⟩
        · simp only [unmapRing, hmul2, bind, Except.bind, Unix.unmap, hm, wrapErr, pure,
            Except.pure]
        · rw [hm]
          refine sameWorld_opened_close h (len := len) ?_ ?_ ?_
          · exact ⟨a1.page, a1.data, a1.size, a1.disk, a1.names, a1.fresh, a1.nextFd, a1.oracle⟩
          · funext q
            dsimp only
            rw [a3, Nat.mul_div_cancel _ hpp, Nat.mul_comm 2 len, pg2 k3 a3]
            split
            · rename_i hq; exact (hfree q hq.1 hq.2).symm
            · rename_i hq; exact a4 q hq
          · exact a2
        · exact (a5.munmap _ _).close _
        · rw [hm]; rfl
      -- first half
      rcases mmap_cases t k2 (p * k.page) len Unix.protRW { shared := true, fixed := true }
          (some k.nextFd) 0 with
        ⟨pt', e, f1, -, f3⟩ | ⟨p', -, -, -, -, -, f6, -, f8⟩
      · -- failed
        generalize hk3 : (k2.mmap t (p * k.page) len Unix.protRW
          { shared := true, fixed := true } (some k.nextFd) 0).1 = k3 at *
        have w3 : Wf t k3 := by rw [← hk3]; exact w2.mmap _ _ _ _ _ _
        rw [f1] at hk3
        dsimp only at hk3
        obtain ⟨k4, u1, u2, u3, u4⟩ := undo k3
          (by rw [← hk3]; exact ⟨k2keep.page, k2keep.data, k2keep.size, k2keep.disk,
                k2keep.names, k2keep.fresh, k2keep.nextFd, k2keep.oracle⟩)
          (by rw [← hk3]; exact k2fds) (by rw [← hk3]; exact k2page)
          (by
            intro q hq
            rw [← hk3]
            dsimp only
            rcases f3 q with h1 | ⟨-, h2, h3⟩
            · rw [h1]; exact k2pt q hq
            · rw [hdiv] at h2 h3; rw [pg1 k2 k2page] at h3; omega) w3
        refine .inl ⟨k4.close k.nextFd, ⟨.system (.os e), .ringPrimary⟩,
          [⟨.close k.nextFd, .ok 0⟩, ⟨.munmap (p * k.page) (2 * len), .ok 0⟩,
           ⟨.mmap (p * k.page) len Unix.protRW { shared := true, fixed := true }
              (some k.nextFd) 0, .error e⟩,
           ⟨.mmap 0 (2 * len) Unix.protRW { priv := true, anon := true } none 0,
              .ok (p * k.page)⟩,
           ⟨.ftruncate k.nextFd len, .ok 0⟩, ⟨.memfd, .ok k.nextFd⟩],
          ?_, u2, u3, ?_, .primary _ _ _ _ _ _ _ _ _ _⟩
        · have : wrapPtr t k2 (p * k.page) len k.nextFd =
              (k3, .error ⟨.system (.os e), .ringPrimary⟩) := by
            simp only [wrapPtr, map, f1, wrapErr, hk3, Error.lastOsError, Error.system]
          simp only [mapRing, he, wrapFd, hmul, bind, Except.bind, emap, this, u1, pure,
            Except.pure]
        · rw [u4, ← hk3]
          dsimp only
          rw [k2log]; rfl
      · have f6 := (f6 rfl).1
        rw [hdiv] at f6
        subst f6
        rcases f8 with ⟨ha, -⟩ | ⟨-, d, f, hd, hf, -, -, f8⟩
        · cases ha
        injection hd with hd
        subst hd
        rw [k2fd] at hf
        injection hf with hf
        subst hf
        rw [pg1 k2 k2page] at f8
        generalize hk3 : (k2.mmap t (p' * k.page) len Unix.protRW
          { shared := true, fixed := true } (some k.nextFd) 0).1 = k3 at *
        have w3 : Wf t k3 := by rw [← hk3]; exact w2.mmap _ _ _ _ _ _
        rw [f8] at hk3
        dsimp only at hk3
        have k3page : k3.page = k.page := by rw [← hk3]; exact k2page
        have k3fd : k3.fds k.nextFd = some ⟨k.fresh, true, true⟩ := by rw [← hk3]; exact k2fd
        have k3fds : k3.fds = (opened k len).fds := by rw [← hk3]; exact k2fds
        have k3keep : KeepsObjects (opened k len) k3 := by
          rw [← hk3]
          exact ⟨k2keep.page, k2keep.data, k2keep.size, k2keep.disk,
                k2keep.names, k2keep.fresh, k2keep.nextFd, k2keep.oracle⟩
        have k3pt : ∀ q, ¬ (p' ≤ q ∧ q < p' + 2 * n) → k3.pt q = k.pt q := by
          intro q hq
          rw [← hk3]
          dsimp only
          rw [mappedPt_out (by omega)]
          exact k2pt q hq
        have k3log : k3.log = ⟨.mmap (p' * k.page) len Unix.protRW
              { shared := true, fixed := true } (some k.nextFd) 0, .ok (p' * k.page)⟩ ::
            k2.log := by
          rw [← hk3]; dsimp only; rw [k2page]
        have hadd : p' * k.page + len = (p' + n) * k.page := by rw [hn, Nat.add_mul]
        have hdiv3 : (p' * k.page + len) / k3.page = p' + n := by
          rw [k3page, hadd]; exact Nat.mul_div_cancel _ hpp
        -- second half
        rcases mmap_cases t k3 (p' * k.page + len) len Unix.protRW
            { shared := true, fixed := true } (some k.nextFd) 0 with
          ⟨pt', e, g1, -, g3⟩ | ⟨p'', -, -, -, -, -, g6, -, g8⟩
        · generalize hk4 : (k3.mmap t (p' * k.page + len) len Unix.protRW
            { shared := true, fixed := true } (some k.nextFd) 0).1 = k4 at *
          have w4 : Wf t k4 := by rw [← hk4]; exact w3.mmap _ _ _ _ _ _
          rw [g1] at hk4
          dsimp only at hk4
          obtain ⟨k5, u1, u2, u3, u4⟩ := undo k4
            (by rw [← hk4]; exact ⟨k3keep.page, k3keep.data, k3keep.size, k3keep.disk,
                k3keep.names, k3keep.fresh, k3keep.nextFd, k3keep.oracle⟩)
            (by rw [← hk4]; exact k3fds) (by rw [← hk4]; exact k3page)
            (by
              intro q hq
              rw [← hk4]
              dsimp only
              rcases g3 q with h1 | ⟨-, h2, h3⟩
              · rw [h1]; exact k3pt q hq
              · rw [hdiv3] at h2 h3; rw [pg1 k3 k3page] at h3; omega) w4
          refine .inl ⟨k5.close k.nextFd, ⟨.system (.os e), .ringSecondary⟩,
            [⟨.close k.nextFd, .ok 0⟩, ⟨.munmap (p' * k.page) (2 * len), .ok 0⟩,
             ⟨.mmap (p' * k.page + len) len Unix.protRW { shared := true, fixed := true }
                (some k.nextFd) 0, .error e⟩,
             ⟨.mmap (p' * k.page) len Unix.protRW { shared := true, fixed := true }
                (some k.nextFd) 0, .ok (p' * k.page)⟩,
             ⟨.mmap 0 (2 * len) Unix.protRW { priv := true, anon := true } none 0,
                .ok (p' * k.page)⟩,
             ⟨.ftruncate k.nextFd len, .ok 0⟩, ⟨.memfd, .ok k.nextFd⟩],
            ?_, u2, u3, ?_, .secondary _ _ _ _ _ _ _ _ _ _ _ _ _⟩
          · have : wrapPtr t k2 (p' * k.page) len k.nextFd =
                (k4, .error ⟨.system (.os e), .ringSecondary⟩) := by
              simp only [wrapPtr, map, f8, wrapErr, hk3, g1, hk4, Error.lastOsError,
                Error.system]
            simp only [mapRing, he, wrapFd, hmul, bind, Except.bind, emap, this, u1, pure,
              Except.pure]
          · rw [u4, ← hk4]
            dsimp only
            rw [k3log, k2log]; rfl
        · have g6 := (g6 rfl).1
          rw [hdiv3] at g6
          subst g6
          rcases g8 with ⟨ha, -⟩ | ⟨-, d, f, hd, hf, -, -, g8⟩
          · cases ha
          injection hd with hd
          subst hd
          rw [k3fd] at hf
          injection hf with hf
          subst hf
          rw [pg1 k3 k3page] at g8
          generalize hk4 : (k3.mmap t (p' * k.page + len) len Unix.protRW
            { shared := true, fixed := true } (some k.nextFd) 0).1 = k4 at *
          have w4 : Wf t k4 := by rw [← hk4]; exact w3.mmap _ _ _ _ _ _
          rw [g8] at hk4
          dsimp only at hk4
          have k4keep : KeepsObjects (opened k len) k4 := by
            rw [← hk4]
            exact ⟨k3keep.page, k3keep.data, k3keep.size, k3keep.disk,
                k3keep.names, k3keep.fresh, k3keep.nextFd, k3keep.oracle⟩
          have k4fds : k4.fds = (opened k len).fds := by rw [← hk4]; exact k3fds
          -- undo the page-table part to reuse the bookkeeping lemma
          have sw := sameWorld_opened_close h (k' := { k4 with pt := k.pt }) (len := len)
            ⟨k4keep.page, k4keep.data, k4keep.size, k4keep.disk, k4keep.names,
              k4keep.fresh, k4keep.nextFd, k4keep.oracle⟩ rfl k4fds
          refine .inr ⟨k4.close k.nextFd, p', n, ?_, w4.close _,
            ⟨sw.page, sw.data, sw.size, sw.disk, sw.names, sw.fresh, sw.nextFd, sw.oracle⟩,
            sw.fds, hn, hn0, e4, Nat.le_of_lt e5, hfree, ?_, ?_, ?_, ?_⟩
          · have : wrapPtr t k2 (p' * k.page) len k.nextFd = (k4, .ok (p' * k.page)) := by
              simp only [wrapPtr, map, f8, wrapErr, hk3, g8, hk4]
            simp only [mapRing, he, wrapFd, hmul, bind, Except.bind, emap, this, pure,
              Except.pure]
          · funext q
            show k4.pt q = _
            rw [← hk4, ← hk3]
            simp only [ringPt, k2page]
            by_cases hq : p' ≤ q ∧ q < p' + 2 * n
            · rw [if_pos hq]
              by_cases hq2 : p' + n ≤ q
              · rw [mappedPt_in (by omega)]
                have : (q - p') % n = q - (p' + n) := by
                  rw [show q - p' = (q - (p' + n)) + n by omega, Nat.add_mod_right]
                  exact Nat.mod_eq_of_lt (by omega)
                rw [this]
                simp
              · rw [mappedPt_out (by omega), mappedPt_in (by omega)]
                have : (q - p') % n = q - p' := Nat.mod_eq_of_lt (by omega)
                rw [this]
                simp
            · rw [if_neg hq, mappedPt_out (by omega), mappedPt_out (by omega)]
              exact k2pt q hq
          · have : k.fresh + 1 ≤ k4.fresh := k4keep.fresh
            show k.fresh < k4.fresh
            omega
          · show k4.size k.fresh = len
            rw [k4keep.size k.fresh (Nat.lt_succ_self _)]
            simp [opened]
          · intro i
            show k4.data k.fresh i = 0
            rw [k4keep.data k.fresh (Nat.lt_succ_self _)]
            simp [opened]

/-- A ring page table is a circular mapping. -/
theorem mirror_of_ringPt {t : Target} {k' : Kernel} {pt : Nat → Option Pte} {p n len : Nat} {o : Obj}
    (hpp : 0 < k'.page) (hn0 : 0 < n) (hlen : len = n * k'.page)
    (hfit : (p + 2 * n) * k'.page ≤ t.lim) (hpt : k'.pt = ringPt pt p n o)
    (hsize : k'.size o = len) : Mirror t k' (p * k'.page) len o := by
  have e2 : 2 * len = (2 * n) * k'.page := by rw [hlen, Nat.mul_assoc]
  refine ⟨by rw [hlen]; exact Nat.mul_pos hn0 hpp, Nat.dvd_mul_left _ _,
    by rw [hlen]; exact Nat.dvd_mul_left _ _, by rw [e2, ← Nat.add_mul]; exact hfit, ?_⟩
  intro i hi
  have hq : (p * k'.page + i) / k'.page = p + i / k'.page := by
    rw [Nat.add_comm, Nat.add_mul_div_right _ _ hpp, Nat.add_comm]
  have hlt : i / k'.page < 2 * n := by
    rw [Nat.div_lt_iff_lt_mul hpp, ← e2]; exact hi
  refine ⟨⟨o, (i / k'.page) % n, Unix.protRW, true, true, none, false⟩, ?_, rfl, rfl, rfl, rfl,
    rfl, ?_, ?_⟩
  · rw [hq, hpt]
    simp only [ringPt]
    rw [if_pos ⟨Nat.le_add_right _ _, Nat.add_lt_add_left hlt _⟩, Nat.add_sub_cancel_left]
  · simp only
    rw [Nat.add_comm (p * k'.page) i, Nat.add_mul_mod_self_right, hlen,
      Nat.mul_comm n k'.page, Nat.mod_mul, Nat.mul_comm k'.page]
    exact Nat.add_comm _ _
  · simp only [backed, decide_eq_true_eq]
    rw [hsize, hlen]
    exact Nat.mul_lt_mul_of_pos_right (Nat.mod_lt _ hn0) hpp

end Posix
end Vmap
