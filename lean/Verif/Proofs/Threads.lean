import Verif.Spec.Threads
import Verif.Proofs.WorldStep
/- Helper lemmas: ring creation, interrupted between its system calls. -/
namespace Vmap
open Kernel Spec

/-! ### Effects of the single calls -/

/-- Only bookkeeping. -/
theorem Effect.logged {k k' : Kernel} {S U : Nat → Prop} (h1 : k'.page = k.page) (h2 : k'.pt = k.pt)
    (h3 : k'.data = k.data) (h4 : k'.size = k.size) (h5 : k'.fds = k.fds) (h6 : k'.names = k.names)
    (h7 : k'.fresh = k.fresh) (h8 : k'.disk = k.disk) (h9 : k'.nextFd = k.nextFd) :
    Effect k k' S U :=
  Effect.same h1 h2 h3 h4 (fun d f => by rw [h5]; exact id) h6 (Nat.le_of_eq h7.symm) h8 _ _
    (Nat.le_of_eq h9.symm) (fun d _ _ => by rw [h5])

/-- New memory without a name, on pages that were free. -/
theorem anon_effect {k k' : Kernel} {S U : Nat → Prop} {p n prot sh}
    (hS : ∀ q, p ≤ q → q < p + n → S q) (h1 : k'.page = k.page)
    (h2 : k'.pt = mappedPt k.pt p n k.fresh 0 prot sh true)
    (h3 : ∀ x, x < k.fresh → k'.data x = k.data x) (h4 : ∀ x, x < k.fresh → k'.size x = k.size x)
    (h5 : k'.fds = k.fds) (h6 : k'.names = k.names) (h7 : k.fresh ≤ k'.fresh)
    (h8 : k'.disk = k.disk) (h9 : k'.nextFd = k.nextFd) : Effect k k' S U := by
  refine ⟨h1, h7, ?_, ?_, fun o i _ => .inl (by rw [h8]), Nat.le_of_eq h9.symm,
    fun d _ _ => by rw [h5]⟩
  · intro q hq
    rw [h2]
    exact Posix.mappedPt_out (fun hh => hq (hS q hh.1 hh.2))
  · intro D x _ hx
    have := hx.old
    refine ⟨h3 x hx.old, h4 x hx.old, by omega, by rw [h5]; exact hx.fds,
      by rw [h6]; exact hx.names, ?_⟩
    intro q e hq he
    rw [h2] at he
    by_cases hin : p ≤ q ∧ q < p + n
    · rw [Posix.mappedPt_in hin] at he
      injection he with he; subst he
      exact ⟨by show k.fresh ≠ x; omega, by intro h; cases h⟩
    · rw [Posix.mappedPt_out hin] at he
      exact hx.pages q e hq he

/-- Pages of an open file, on pages that belong to `S`. -/
theorem fixed_effect {k k' : Kernel} {S : Nat → Prop} {p n idx prot sh mw fd f}
    (hS : ∀ q, p ≤ q → q < p + n → S q) (hf : k.fds fd = some f) (h1 : k'.page = k.page)
    (h2 : k'.pt = mappedPt k.pt p n f.obj idx prot sh mw)
    (h3 : k'.data = k.data) (h4 : k'.size = k.size) (h5 : k'.fds = k.fds) (h6 : k'.names = k.names)
    (h7 : k'.fresh = k.fresh) (h8 : k'.disk = k.disk) (h9 : k'.nextFd = k.nextFd) :
    Effect k k' S (fun d => some fd = some d) := by
  refine ⟨h1, Nat.le_of_eq h7.symm, ?_, ?_, fun o i _ => .inl (by rw [h8]), Nat.le_of_eq h9.symm,
    fun d _ _ => by rw [h5]⟩
  · intro q hq
    rw [h2]
    exact Posix.mappedPt_out (fun hh => hq (hS q hh.1 hh.2))
  · intro D x hD hx
    refine ⟨by rw [h3], by rw [h4], by rw [h7]; exact hx.old, by rw [h5]; exact hx.fds,
      by rw [h6]; exact hx.names, ?_⟩
    intro q e hq he
    rw [h2] at he
    by_cases hin : p ≤ q ∧ q < p + n
    · rw [Posix.mappedPt_in hin] at he
      injection he with he; subst he
      exact ⟨hx.fds fd f (hD fd rfl) hf, by intro h; cases h⟩
    · rw [Posix.mappedPt_out hin] at he
      exact hx.pages q e hq he

/-! ### What a running ring creation relies on -/

/-- Object `o` is the job's: only descriptor `fd` and pages of `A` lead to it. -/
structure Mine (k : Kernel) (fd : Nat) (o : Obj) (A : Nat → Prop) : Prop where
  isOpen : k.fds fd = some ⟨o, true, true⟩
  only : ∀ d f, d ≠ fd → k.fds d = some f → f.obj ≠ o
  names : ∀ s, k.names s ≠ some o
  pages : ∀ q e, ¬ A q → k.pt q = some e → e.obj ≠ o

theorem Mine.mono {k : Kernel} {fd o} {A B : Nat → Prop} (m : Mine k fd o A) (h : ∀ q, A q → B q) :
    Mine k fd o B := ⟨m.isOpen, m.only, m.names, fun q e hq => m.pages q e (fun hh => hq (h q hh))⟩

theorem Mine.hid {t : Target} {k : Kernel} {fd o} {A S : Nat → Prop} (w : Wf t k)
    (m : Mine k fd o A) (hS : ∀ q, A q → ¬ S q) : Hid k S (fun d => d ≠ fd) o := by
  refine ⟨(w.fds fd _ m.isOpen).1, m.only, m.names, ?_⟩
  intro q e hq he
  refine ⟨m.pages q e (fun hh => hS q hh hq) he, ?_⟩
  intro hc
  exact (w.excl q e o he hc).2.1 fd _ m.isOpen rfl

/-- Another step leaves the job's object to the job. -/
theorem Mine.frame {t : Target} {k k' : Kernel} {fd o} {A S U : Nat → Prop} (w : Wf t k)
    (m : Mine k fd o A) (fx : Effect k k' S U) (hU : ¬ U fd) (hS : ∀ q, A q → ¬ S q) :
    Mine k' fd o A ∧ k'.size o = k.size o ∧ k'.data o = k.data o := by
  obtain ⟨h1, h2, h3⟩ := fx.hid _ o (fun d hd => (by intro hh; rw [hh] at hd; exact hU hd)) (m.hid w hS)
  refine ⟨⟨?_, h3.fds, h3.names, ?_⟩, h2, h1⟩
  · rw [fx.fdsame fd (w.fds fd _ m.isOpen).2 hU]; exact m.isOpen
  · intro q e hq he
    by_cases hs : S q
    · exact (h3.pages q e hs he).1
    · rw [fx.pt q hs] at he
      exact m.pages q e hq he

/-- The area a job has reserved, as a handle. -/
abbrev Spec.area (pg len : Nat) : Handle := .map ⟨pg, 2 * len⟩

/-- A job that has reserved its memory: pages `[p, p + 2*n)`, object `o`. -/
structure Placed (t : Target) (w : World) (j : Task) (len fd pg : Nat) (o : Obj) (p n : Nat) :
    Prop where
  isLen : len = j.len
  half : len < t.lim / 2
  held : w.held j.slot = some (area pg len)
  start : pg = p * w.k.page
  pages : len = n * w.k.page
  pos : 0 < n
  fits : (p + 2 * n) * w.k.page ≤ t.lim
  size : w.k.size o = len
  mine : Mine w.k fd o (fun q => p ≤ q ∧ q < p + 2 * n)

/-- What holds between the calls of a ring creation, by the next call. -/
def TaskInv (t : Target) (w : World) (j : Task) : Prop :=
  w.k.page ∣ j.len ∧
  match j.job with
  | .memfd len => len = j.len
  | .size len fd => len = j.len ∧ ∃ o, Mine w.k fd o noPage
  | .abandon fd _ => ∃ o, Mine w.k fd o noPage
  | .reserve len fd => len = j.len ∧ len < t.lim / 2 ∧ ∃ o, Mine w.k fd o noPage ∧ w.k.size o = len
  | .first len fd pg => ∃ o p n, Placed t w j len fd pg o p n
  | .second len fd pg => ∃ o p n, Placed t w j len fd pg o p n ∧
      ∀ q, p ≤ q → q < p + n → w.k.pt q = some ⟨o, q - p, Unix.protRW, true, true, none, false⟩
  | .undo len fd pg _ => ∃ o p n, Placed t w j len fd pg o p n
  | .finish fd (.ok pg) => ∃ o p n, Placed t w j j.len fd pg o p n ∧
      ∀ q, p ≤ q → q < p + 2 * n →
        w.k.pt q = some ⟨o, (q - p) % n, Unix.protRW, true, true, none, false⟩
  | .finish fd (.error _) => ∃ o, Mine w.k fd o noPage
  | .done _ => False

theorem area_page {u p n pg len : Nat} (hu : 0 < u) (h1 : pg = p * u) (h2 : len = n * u) (q : Nat) :
    (area pg len).OnPage u q ↔ p ≤ q ∧ q < p + 2 * n := by
  rw [show (area pg len).OnPage u q ↔ OnPage u pg (2 * len) q from Iff.rfl,
    onPage_ring hu (by rw [h1]; exact Nat.dvd_mul_left _ _) q, h1, h2,
    show p * u + 2 * (n * u) = (p + 2 * n) * u by rw [Nat.add_mul, Nat.mul_assoc]]
  constructor
  · rintro ⟨a, b⟩
    exact ⟨Nat.le_of_mul_le_mul_right a hu, Nat.lt_of_mul_lt_mul_right b⟩
  · rintro ⟨a, b⟩
    exact ⟨Nat.mul_le_mul_right _ a, Nat.mul_lt_mul_of_pos_right b hu⟩

section
variable {t : Target} {k0 : Kernel} {w w' : World} {j : Task}

theorem Placed.frame {len fd pg o p n} {S U : Nat → Prop} (wf : Wf t w.k)
    (pl : Placed t w j len fd pg o p n) (fx : Effect w.k w'.k S U) (hU : ¬ U fd)
    (hS : w'.held j.slot = some (area pg len) ∧ ∀ q, (area pg len).OnPage w.k.page q → ¬ S q) :
    Placed t w' j len fd pg o p n ∧ ∀ q, p ≤ q → q < p + 2 * n → w'.k.pt q = w.k.pt q := by
  have hin : ∀ q, p ≤ q ∧ q < p + 2 * n → ¬ S q := fun q hq =>
    hS.2 q ((area_page wf.page_pos pl.start pl.pages q).mpr hq)
  obtain ⟨h1, h2, -⟩ := pl.mine.frame wf fx hU hin
  refine ⟨⟨pl.isLen, pl.half, hS.1, by rw [fx.page]; exact pl.start, by rw [fx.page]; exact pl.pages,
    pl.pos, by rw [fx.page]; exact pl.fits, by rw [h2]; exact pl.size, h1⟩, ?_⟩
  intro q a b
  exact fx.pt q (hin q ⟨a, b⟩)

/-- A step of another thread. -/
theorem TaskInv.frame {tgt fd : Option Nat} {quiet} (wf : Wf t w.k)
    (v : TaskInv t w j) (st : Step t k0 w w' tgt fd quiet)
    (hs : j.reserved = true → tgt ≠ some j.slot) (hfd : fd ≠ none → fd ≠ j.job.fd) :
    TaskInv t w' j := by
  obtain ⟨S, fx, hS⟩ := st.fx
  obtain ⟨hd, v⟩ := v
  refine ⟨by rw [fx.page]; exact hd, ?_⟩
  have hU : ∀ d, j.job.fd = some d → ¬ fd = some d := by
    intro d h1 h2
    exact hfd (by rw [h2]; simp) (by rw [h1, h2])
  have mine : ∀ d o, j.job.fd = some d → Mine w.k d o noPage →
      Mine w'.k d o noPage ∧ w'.k.size o = w.k.size o := by
    intro d o h1 h2
    obtain ⟨a, b, -⟩ := h2.frame wf fx (hU d h1) (fun _ h => h.elim)
    exact ⟨a, b⟩
  have placed : ∀ len d pg o p n, j.job.fd = some d → j.reserved = true →
      Placed t w j len d pg o p n →
      Placed t w' j len d pg o p n ∧ ∀ q, p ≤ q → q < p + 2 * n → w'.k.pt q = w.k.pt q := by
    intro len d pg o p n h1 h2 h3
    exact h3.frame wf fx (hU d h1) (hS _ _ h3.held (hs h2))
  obtain ⟨jlen, inf, job, slot⟩ := j
  cases job with
  | memfd len => exact v
  | size len fd =>
    obtain ⟨a, o, b⟩ := v
    exact ⟨a, o, (mine fd o rfl b).1⟩
  | abandon fd err =>
    obtain ⟨o, b⟩ := v
    exact ⟨o, (mine fd o rfl b).1⟩
  | reserve len fd =>
    obtain ⟨a, c, o, b, s⟩ := v
    obtain ⟨x, y⟩ := mine fd o rfl b
    exact ⟨a, c, o, x, by rw [y]; exact s⟩
  | first len fd pg =>
    obtain ⟨o, p, n, a⟩ := v
    exact ⟨o, p, n, (placed _ _ _ _ _ _ rfl rfl a).1⟩
  | second len fd pg =>
    obtain ⟨o, p, n, a, b⟩ := v
    obtain ⟨x, y⟩ := placed _ _ _ _ _ _ rfl rfl a
    exact ⟨o, p, n, x, fun q h1 h2 => by rw [y q h1 (by omega)]; exact b q h1 h2⟩
  | undo len fd pg err =>
    obtain ⟨o, p, n, a⟩ := v
    exact ⟨o, p, n, (placed _ _ _ _ _ _ rfl rfl a).1⟩
  | finish fd ret =>
    cases ret with
    | error e =>
      obtain ⟨o, b⟩ := v
      exact ⟨o, (mine fd o rfl b).1⟩
    | ok pg =>
      obtain ⟨o, p, n, a, b⟩ := v
      obtain ⟨x, y⟩ := placed _ _ _ _ _ _ rfl rfl a
      exact ⟨o, p, n, x, fun q h1 h2 => by rw [y q h1 h2]; exact b q h1 h2⟩
  | done ret => exact v

theorem Good.step {tgt fd : Option Nat} {quiet} (h : Good t k0 w tgt fd quiet (.ok w')) :
    Step t k0 w w' tgt fd quiet := by
  obtain ⟨w1, h1, h2⟩ := h
  injection h1 with h1
  rw [h1]; exact h2

/-- What a system call of a ring creation achieves; `b` is the state after it, as booked. -/
structure TaskStep (t : Target) (k0 : Kernel) (w : World) (j : Task) (b : World × Option Task) :
    Prop where
  step : Step t k0 w b.1 (if j.reserved = true then some j.slot else none) j.job.fd false
  inv : ∀ j', b.2 = some j' → TaskInv t b.1 j'
  fd : ∀ j', b.2 = some j' → j'.job.fd = j.job.fd ∨ j'.job.fd = some w.k.nextFd
  slot : ∀ j', b.2 = some j' → j'.reserved = true →
    (j.reserved = true ∧ j'.slot = j.slot) ∨ j'.slot = w.next
  objs : ∀ x, x < w.k.fresh → (∀ d f, j.job.fd = some d → w.k.fds d = some f → x ≠ f.obj) →
    b.1.k.data x = w.k.data x ∧ b.1.k.size x = w.k.size x

theorem step_memfd (v : w.Inv t k0) {len slot : Nat} {inf : Bool} {jlen : Nat}
    (h : TaskInv t w ⟨jlen, inf, .memfd len, slot⟩) :
    ∃ k' next, RingJob.step t w.k (.memfd len) = .ok (k', next) ∧
      TaskStep t k0 w ⟨jlen, inf, .memfd len, slot⟩
        (Multi.book w ⟨jlen, inf, .memfd len, slot⟩ k' next) := by
  obtain ⟨hd, h⟩ := h
  have wf' := v.wf.memfd
  rcases memfd_cases w.k with ⟨e, he⟩ | he
  · rw [he] at wf'
    refine ⟨_, _, by simp only [RingJob.step, Posix.memfdOpen, he, wrapErr]; rfl, ?_⟩
    refine ⟨(Good.none v wf' (Effect.logged rfl rfl rfl rfl rfl rfl rfl rfl rfl)
      (fun h => by cases h)).step, (fun j' hj => by cases hj), (fun j' hj => by cases hj),
      (fun j' hj => by cases hj), fun x _ _ => ⟨rfl, rfl⟩⟩
  · rw [he] at wf'
    refine ⟨_, _, by simp only [RingJob.step, Posix.memfdOpen, he, wrapErr]; rfl, ?_⟩
    have fx : Effect w.k w.k.memfdCreate.1 noPage (fun d => Option.none = some d) := by
      rw [he]
      refine ⟨rfl, Nat.le_succ _, fun q _ => rfl, ?_, fun o i _ => .inl rfl, Nat.le_succ _,
        fun d hd _ => if_neg (Nat.ne_of_lt hd)⟩
      intro D y _ hy
      have hne : y ≠ w.k.fresh := by have := hy.old; omega
      refine ⟨funext fun _ => if_neg hne, if_neg hne, Nat.lt_succ_of_lt hy.old, ?_, hy.names,
        hy.pages⟩
      intro d f hD hd
      dsimp only at hd
      split at hd
      · injection hd with hd; subst hd; exact hne.symm
      · exact hy.fds d f hD hd
    rw [he] at fx
    have mine : Mine w.k.memfdCreate.1 w.k.nextFd w.k.fresh noPage := by
      rw [he]
      refine ⟨if_pos rfl, ?_, ?_, ?_⟩
      · intro d f hne hf
        have hf : (if d = w.k.nextFd then some ⟨w.k.fresh, true, true⟩ else w.k.fds d) = some f := hf
        rw [if_neg hne] at hf
        have := (v.wf.fds d f hf).1
        omega
      · intro s hs
        have := v.wf.names s _ hs
        omega
      · intro q e _ he
        have := (v.wf.objs q e he).1
        omega
    rw [he] at mine
    refine ⟨(Good.none v wf' fx (fun h => by cases h)).step, ?_, ?_, ?_, ?_⟩
    · intro j' hj
      injection hj with hj; subst hj
      exact ⟨hd, h, _, mine⟩
    · intro j' hj
      injection hj with hj; subst hj
      exact .inr rfl
    · intro j' hj hr
      injection hj with hj; subst hj
      cases hr
    · intro x hx _
      have hne : x ≠ w.k.fresh := by omega
      exact ⟨funext fun _ => if_neg hne, if_neg hne⟩

theorem step_size (v : w.Inv t k0) {len fd slot : Nat} {inf : Bool} {jlen : Nat}
    (h : TaskInv t w ⟨jlen, inf, .size len fd, slot⟩) :
    ∃ k' next, RingJob.step t w.k (.size len fd) = .ok (k', next) ∧
      TaskStep t k0 w ⟨jlen, inf, .size len fd, slot⟩
        (Multi.book w ⟨jlen, inf, .size len fd, slot⟩ k' next) := by
  obtain ⟨hd, hl, o, mine⟩ := h
  have wf' := v.wf.ftruncate fd len
  rcases ftruncate_cases t w.k fd len with ⟨e, he⟩ | ⟨f, hf, -, hlt, he⟩
  · rw [he] at wf'
    refine ⟨_, _, by simp only [RingJob.step, he]; rfl, ?_⟩
    refine ⟨(Good.none v wf' (Effect.logged rfl rfl rfl rfl rfl rfl rfl rfl rfl)
      (fun h => by cases h)).step, ?_, ?_, ?_, fun x _ _ => ⟨rfl, rfl⟩⟩
    · intro j' hj
      injection hj with hj; subst hj
      exact ⟨hd, o, mine.isOpen, mine.only, mine.names, mine.pages⟩
    · intro j' hj
      injection hj with hj; subst hj
      exact .inl rfl
    · intro j' hj hr
      injection hj with hj; subst hj
      cases hr
  · rw [mine.isOpen] at hf
    injection hf with hf
    subst hf
    rw [he] at wf'
    refine ⟨_, _, by simp only [RingJob.step, he]; rfl, ?_⟩
    have other : ∀ x, x ≠ o → (fun i => if x = o ∧ (len ≤ i ∨ w.k.size o ≤ i) then 0 else w.k.data x i)
        = w.k.data x := fun x hx => funext fun i => if_neg (fun hh => hx hh.1)
    refine ⟨(Good.none v wf' ?_ (fun h => by cases h)).step, ?_, ?_, ?_, ?_⟩
    · refine ⟨rfl, Nat.le_refl _, fun q _ => rfl, ?_, fun o i _ => .inl rfl, Nat.le_refl _,
        fun _ _ _ => rfl⟩
      intro D y hD hy
      have hne : y ≠ o := (hy.fds fd _ (hD fd rfl) mine.isOpen).symm
      exact ⟨other y hne, if_neg hne, hy.old, hy.fds, hy.names, hy.pages⟩
    · intro j' hj
      injection hj with hj; subst hj
      exact ⟨hd, hl, hlt, o, ⟨mine.isOpen, mine.only, mine.names, mine.pages⟩, if_pos rfl⟩
    · intro j' hj
      injection hj with hj; subst hj
      exact .inl rfl
    · intro j' hj hr
      injection hj with hj; subst hj
      cases hr
    · intro x _ hne
      have hne := hne fd _ rfl mine.isOpen
      exact ⟨other x hne, if_neg hne⟩

theorem step_abandon (v : w.Inv t k0) {fd slot : Nat} {err : Error} {inf : Bool} {jlen : Nat} :
    ∃ k' next, RingJob.step t w.k (.abandon fd err) = .ok (k', next) ∧
      TaskStep t k0 w ⟨jlen, inf, .abandon fd err, slot⟩
        (Multi.book w ⟨jlen, inf, .abandon fd err, slot⟩ k' next) := by
  refine ⟨_, _, rfl, ?_⟩
  exact ⟨(Good.none v (v.wf.close fd) (close_effect _ fd _) (fun h => by cases h)).step,
    (fun j' hj => by cases hj), (fun j' hj => by cases hj), (fun j' hj => by cases hj),
    fun x _ _ => ⟨rfl, rfl⟩⟩

theorem pages_whole {k : Kernel} (hp : 0 < k.page) {l n : Nat} (h : l = n * k.page) : k.pages l = n := by
  have := pages_mul hp (len := l) (by rw [h]; exact Nat.dvd_mul_left _ _)
  rw [h] at this
  rw [h]
  exact Nat.eq_of_mul_eq_mul_right hp this

theorem step_reserve (v : w.Inv t k0) {len fd slot : Nat} {inf : Bool} {jlen : Nat}
    (h : TaskInv t w ⟨jlen, inf, .reserve len fd, slot⟩) :
    ∃ k' next, RingJob.step t w.k (.reserve len fd) = .ok (k', next) ∧
      TaskStep t k0 w ⟨jlen, inf, .reserve len fd, slot⟩
        (Multi.book w ⟨jlen, inf, .reserve len fd, slot⟩ k' next) := by
  obtain ⟨hd, hl, hlt, o, mine, hsz⟩ := h
  have hpp := v.wf.page_pos
  have hmul : mulU t len 2 = .ok (len * 2) := Posix.mulU_ok (by omega)
  have wf' := v.wf.mmap 0 (len * 2) Unix.protRW { priv := true, anon := true } none 0
  obtain ⟨n, hn⟩ := id hd
  have hn : len = n * w.k.page := by rw [hl, Nat.mul_comm]; exact hn
  have hn2 : len * 2 = (2 * n) * w.k.page := by rw [hn, Nat.mul_comm _ 2, Nat.mul_assoc]
  rcases mmap_cases t w.k 0 (len * 2) Unix.protRW { priv := true, anon := true } none 0 with
    ⟨pt', e, e1, e2, -⟩ | ⟨p, e1, -, -, e4, e5, -, e7, e8⟩
  · have e2 := e2 rfl
    subst e2
    rw [e1] at wf'
    refine ⟨_, _, by simp only [RingJob.step, Posix.map, hmul, e1, wrapErr, bind, Except.bind]; rfl, ?_⟩
    refine ⟨(Good.none v wf' (Effect.logged rfl rfl rfl rfl rfl rfl rfl rfl rfl)
      (fun h => by cases h)).step, ?_, ?_, ?_, fun x _ _ => ⟨rfl, rfl⟩⟩
    · intro j' hj
      injection hj with hj; subst hj
      exact ⟨hd, o, mine.isOpen, mine.only, mine.names, mine.pages⟩
    · intro j' hj
      injection hj with hj; subst hj
      exact .inl rfl
    · intro j' hj hr
      injection hj with hj; subst hj
      cases hr
  · have e8 := (e8.resolve_right (fun h => by cases h.1)).2
    rw [pages_whole hpp hn2] at e5 e7 e8
    have e7 := e7 rfl
    have hn0 : 0 < n := by
      rcases Nat.eq_zero_or_pos n with h0 | h0
      · subst h0; rw [hn2] at e1; simp at e1
      · exact h0
    rw [e8] at wf'
    refine ⟨_, _, by simp only [RingJob.step, Posix.map, hmul, e8, wrapErr, bind, Except.bind]; rfl, ?_⟩
    have hpg : ∀ q, (area (p * w.k.page) len).OnPage w.k.page q ↔ p ≤ q ∧ q < p + 2 * n :=
      area_page hpp rfl hn
    have hdat : ∀ x, x < w.k.fresh → (fun i => if x = w.k.fresh then 0 else w.k.data x i) = w.k.data x :=
      fun x hx => funext fun i => if_neg (by omega)
    have pages : Pages t w.k.page (p * w.k.page) (2 * len) p (2 * n) := by
      have h3 : (p + 2 * n) * w.k.page = p * w.k.page + 2 * len := by
        rw [hn, Nat.add_mul, Nat.mul_assoc]
      refine ⟨by omega, by omega, e5, Nat.le_refl _, by omega, ?_, ?_⟩ <;> rw [h3] <;> omega
    refine ⟨(Good.put v wf' (h := area (p * w.k.page) len) (tgt := none) ?_ ?_ ?_ (fun h => by cases h)).step, ?_, ?_, ?_, ?_⟩
    · exact anon_effect (fun q a b => (hpg q).mpr ⟨a, b⟩) rfl rfl hdat
        (fun x hx => if_neg (by omega)) rfl rfl (Nat.le_succ _) rfl rfl
    · refine ⟨p, 2 * n, pages, ?_⟩
      intro q a b
      exact ⟨_, Posix.mappedPt_in ⟨a, b⟩⟩
    · intro q hq
      obtain ⟨a, b⟩ := (hpg q).mp hq
      exact e7 q a b
    · intro j' hj
      injection hj with hj; subst hj
      have ho := (v.wf.fds fd _ mine.isOpen).1
      refine ⟨hd, o, p, n, hl, hlt, ?_, rfl, hn, hn0, Nat.le_of_lt e5, ?_, mine.isOpen,
        mine.only, mine.names, ?_⟩
      · exact if_pos rfl
      · exact (if_neg (Nat.ne_of_lt ho)).trans hsz
      · intro q e hq he
        have he : mappedPt w.k.pt p (2 * n) w.k.fresh 0 _ _ true q = some e := he
        rw [Posix.mappedPt_out hq] at he
        exact mine.pages q e id he
    · intro j' hj
      injection hj with hj; subst hj
      exact .inl rfl
    · intro j' hj hr
      injection hj with hj; subst hj
      exact .inr rfl
    · intro x hx _
      exact ⟨hdat x hx, if_neg (Nat.ne_of_lt hx)⟩

/-- One of the two calls that put the file's pages over a half of the reserved memory. -/
theorem fixed_cases (v : w.Inv t k0) {len fd pg o p n a p1}
    (pl : Placed t w j len fd pg o p n) (ha : a = p1 * w.k.page) (h1 : p ≤ p1)
    (h2 : p1 + n ≤ p + 2 * n) (op : Operation)
    (hc : ∀ k' e, Posix.map t w.k op a len { shared := true, fixed := true } (some fd) =
      (k', .error e) → k'.pt = w.k.pt) :
    ∃ k' r, Posix.map t w.k op a len { shared := true, fixed := true } (some fd) = (k', r) ∧
      Step t k0 w (w.run k') (some j.slot) (some fd) false ∧ Placed t (w.run k') j len fd pg o p n ∧
      k'.data = w.k.data ∧ k'.size = w.k.size ∧
      ((∃ e, r = .error e) ∨ (r = .ok a ∧
        k'.pt = mappedPt w.k.pt p1 n o 0 Unix.protRW true true)) := by
  have hpp := v.wf.page_pos
  have wf' := v.wf.mmap a len Unix.protRW { shared := true, fixed := true } (some fd) 0
  have hpg := area_page hpp pl.start pl.pages
  obtain ⟨P, N, live⟩ := v.live _ _ pl.held
  rcases mmap_cases t w.k a len Unix.protRW { shared := true, fixed := true } (some fd) 0 with
    ⟨pt', e, e1, -, -⟩ | ⟨p', e1, -, -, e4, e5, e6, -, e8⟩
  · have hpt : pt' = w.k.pt := hc _ _ (by simp only [Posix.map, e1, wrapErr]; rfl)
    subst hpt
    rw [e1] at wf'
    refine ⟨_, _, by simp only [Posix.map, e1, wrapErr]; rfl, ?_, ?_, ?_⟩
    · refine (Good.same v pl.held wf' (Effect.logged rfl rfl rfl rfl rfl rfl rfl rfl rfl) ?_
        (fun h => by cases h)).step
      exact ⟨P, N, live.pages, live.mapped⟩
    · exact ⟨pl.isLen, pl.half, pl.held, pl.start, pl.pages, pl.pos, pl.fits, pl.size,
        pl.mine.isOpen, pl.mine.only, pl.mine.names, pl.mine.pages⟩
    · exact ⟨rfl, rfl, .inl ⟨_, rfl⟩⟩
  · obtain ⟨e6, -⟩ := e6 rfl
    rw [ha, Nat.mul_div_cancel _ hpp] at e6
    subst e6
    rcases e8 with ⟨h, -⟩ | ⟨-, d, f, hd, hf, -, -, e8⟩
    · cases h
    injection hd with hd
    subst hd
    rw [pl.mine.isOpen] at hf
    injection hf with hf
    subst hf
    rw [pages_whole hpp pl.pages, Nat.zero_div] at e8
    rw [e8] at wf'
    have hin : ∀ q, p' ≤ q → q < p' + n → (area pg len).OnPage w.k.page q := fun q a b =>
      (hpg q).mpr ⟨by omega, by omega⟩
    refine ⟨_, _, by simp only [Posix.map, e8, wrapErr]; rfl, ?_, ?_, ?_⟩
    · refine (Good.same v pl.held wf' (fixed_effect hin pl.mine.isOpen rfl rfl rfl rfl rfl rfl rfl rfl
        rfl) ?_ (fun h => by cases h)).step
      refine ⟨P, N, live.pages, ?_⟩
      intro q x y
      by_cases hq : p' ≤ q ∧ q < p' + n
      · exact ⟨_, Posix.mappedPt_in hq⟩
      · obtain ⟨e, he⟩ := live.mapped q x y
        exact ⟨e, (Posix.mappedPt_out hq).trans he⟩
    · refine ⟨pl.isLen, pl.half, pl.held, pl.start, pl.pages, pl.pos, pl.fits, pl.size,
        pl.mine.isOpen, pl.mine.only, pl.mine.names, ?_⟩
      intro q e hq he
      have he : mappedPt w.k.pt p' n o 0 _ _ _ q = some e := he
      rw [Posix.mappedPt_out (by omega)] at he
      exact pl.mine.pages q e hq he
    · exact ⟨rfl, rfl, .inr ⟨by rw [ha], rfl⟩⟩

theorem step_first (v : w.Inv t k0) {len fd pg slot : Nat} {inf : Bool} {jlen : Nat}
    (hc : ∀ k' len' fd' pg' e, RingJob.step t w.k (.first len fd pg) =
      .ok (k', .undo len' fd' pg' e) → k'.pt = w.k.pt)
    (h : TaskInv t w ⟨jlen, inf, .first len fd pg, slot⟩) :
    ∃ k' next, RingJob.step t w.k (.first len fd pg) = .ok (k', next) ∧
      TaskStep t k0 w ⟨jlen, inf, .first len fd pg, slot⟩
        (Multi.book w ⟨jlen, inf, .first len fd pg, slot⟩ k' next) := by
  obtain ⟨hd, o, p, n, pl⟩ := h
  obtain ⟨k', r, he, st, pl', hdat, hsz, hr⟩ := fixed_cases v pl pl.start (Nat.le_refl _) (by omega)
    .ringPrimary (fun k' e h => hc k' len fd pg e (by simp only [RingJob.step, h]; rfl))
  have hd' : k'.page ∣ jlen := by
    obtain ⟨S, fx, -⟩ := st.fx
    have : k'.page = w.k.page := fx.page
    rw [this]; exact hd
  have pl2 : ∀ job, Placed t (w.run k') ⟨jlen, inf, job, slot⟩ len fd pg o p n := fun job =>
    ⟨pl'.isLen, pl'.half, pl'.held, pl'.start, pl'.pages, pl'.pos, pl'.fits, pl'.size, pl'.mine⟩
  rcases hr with ⟨e, rfl⟩ | ⟨rfl, hpt⟩
  · refine ⟨k', .undo len fd pg e, by simp only [RingJob.step, he]; rfl, st, ?_, ?_, ?_, ?_⟩
    · intro j' hj
      injection hj with hj; subst hj
      exact ⟨hd', o, p, n, pl2 _⟩
    · intro j' hj
      injection hj with hj; subst hj
      exact .inl rfl
    · intro j' hj hr
      injection hj with hj; subst hj
      exact .inl ⟨rfl, rfl⟩
    · intro x _ _
      exact ⟨by show k'.data x = _; rw [hdat], by show k'.size x = _; rw [hsz]⟩
  · refine ⟨k', .second len fd pg, by simp only [RingJob.step, he]; rfl, st, ?_, ?_, ?_, ?_⟩
    · intro j' hj
      injection hj with hj; subst hj
      refine ⟨hd', o, p, n, pl2 _, ?_⟩
      intro q a b
      show k'.pt q = _
      rw [hpt, Posix.mappedPt_in ⟨a, b⟩, Nat.zero_add]
    · intro j' hj
      injection hj with hj; subst hj
      exact .inl rfl
    · intro j' hj hr
      injection hj with hj; subst hj
      exact .inl ⟨rfl, rfl⟩
    · intro x _ _
      exact ⟨by show k'.data x = _; rw [hdat], by show k'.size x = _; rw [hsz]⟩

theorem step_second (v : w.Inv t k0) {len fd pg slot : Nat} {inf : Bool} {jlen : Nat}
    (hc : ∀ k' len' fd' pg' e, RingJob.step t w.k (.second len fd pg) =
      .ok (k', .undo len' fd' pg' e) → k'.pt = w.k.pt)
    (h : TaskInv t w ⟨jlen, inf, .second len fd pg, slot⟩) :
    ∃ k' next, RingJob.step t w.k (.second len fd pg) = .ok (k', next) ∧
      TaskStep t k0 w ⟨jlen, inf, .second len fd pg, slot⟩
        (Multi.book w ⟨jlen, inf, .second len fd pg, slot⟩ k' next) := by
  obtain ⟨hd, o, p, n, pl, hfst⟩ := h
  have hpg : pg + len = (p + n) * w.k.page := by rw [pl.start, pl.pages, Nat.add_mul]
  obtain ⟨k', r, he, st, pl', hdat, hsz, hr⟩ := fixed_cases v pl hpg (by omega) (by omega)
    .ringSecondary (fun k' e h => hc k' len fd pg e (by simp only [RingJob.step, h]; rfl))
  have hd' : k'.page ∣ jlen := by
    obtain ⟨S, fx, -⟩ := st.fx
    have : k'.page = w.k.page := fx.page
    rw [this]; exact hd
  have pl2 : ∀ job, Placed t (w.run k') ⟨jlen, inf, job, slot⟩ len fd pg o p n := fun job =>
    ⟨pl'.isLen, pl'.half, pl'.held, pl'.start, pl'.pages, pl'.pos, pl'.fits, pl'.size, pl'.mine⟩
  rcases hr with ⟨e, rfl⟩ | ⟨rfl, hpt⟩
  · refine ⟨k', .undo len fd pg e, by simp only [RingJob.step, he]; rfl, st, ?_, ?_, ?_, ?_⟩
    · intro j' hj
      injection hj with hj; subst hj
      exact ⟨hd', o, p, n, pl2 _⟩
    · intro j' hj
      injection hj with hj; subst hj
      exact .inl rfl
    · intro j' hj hr
      injection hj with hj; subst hj
      exact .inl ⟨rfl, rfl⟩
    · intro x _ _
      exact ⟨by show k'.data x = _; rw [hdat], by show k'.size x = _; rw [hsz]⟩
  · refine ⟨k', .finish fd (.ok pg), by simp only [RingJob.step, he]; rfl, st, ?_, ?_, ?_, ?_⟩
    · intro j' hj
      injection hj with hj; subst hj
      have hl : len = jlen := pl.isLen
      subst hl
      refine ⟨hd', o, p, n, pl2 _, ?_⟩
      intro q a b
      show k'.pt q = _
      rw [hpt]
      by_cases hq : p + n ≤ q
      · rw [Posix.mappedPt_in (by omega)]
        have : (q - p) % n = q - (p + n) := by
          rw [show q - p = (q - (p + n)) + n by omega, Nat.add_mod_right]
          exact Nat.mod_eq_of_lt (by omega)
        rw [this, Nat.zero_add]
      · rw [Posix.mappedPt_out (by omega), hfst q a (by omega), Nat.mod_eq_of_lt (by omega)]
    · intro j' hj
      injection hj with hj; subst hj
      exact .inl rfl
    · intro j' hj hr
      injection hj with hj; subst hj
      exact .inl ⟨rfl, rfl⟩
    · intro x _ _
      exact ⟨by show k'.data x = _; rw [hdat], by show k'.size x = _; rw [hsz]⟩

theorem step_undo (v : w.Inv t k0) {len fd pg slot : Nat} {err : Error}
    {inf : Bool} {jlen : Nat} (h : TaskInv t w ⟨jlen, inf, .undo len fd pg err, slot⟩) :
    ∃ k' next, RingJob.step t w.k (.undo len fd pg err) = .ok (k', next) ∧
      TaskStep t k0 w ⟨jlen, inf, .undo len fd pg err, slot⟩
        (Multi.book w ⟨jlen, inf, .undo len fd pg err, slot⟩ k' next) := by
  obtain ⟨hd, o, p, n, pl⟩ := h
  have hpp := v.wf.page_pos
  have hmul : mulU t 2 len = .ok (2 * len) := Posix.mulU_ok (by have := pl.half; omega)
  have h0 : 2 * len ≠ 0 := by
    have := Nat.mul_pos pl.pos hpp
    rw [← pl.pages] at this; omega
  have hn2 : 2 * len = (2 * n) * w.k.page := by rw [pl.pages, Nat.mul_assoc]
  have hm := munmap_eq (k := w.k) (addr := pg) (len := 2 * len) h0
    (by rw [pl.start]; exact Nat.mul_mod_left _ _)
  rw [pages_whole hpp hn2, show pg / w.k.page = p by rw [pl.start]; exact Nat.mul_div_cancel _ hpp] at hm
  have wf' := v.wf.munmap pg (2 * len)
  rw [hm] at wf'
  have hpg := area_page hpp pl.start pl.pages
  refine ⟨_, _, by simp only [RingJob.step, Posix.unmapRing, hmul, Unix.unmap, hm, wrapErr, bind,
    Except.bind, pure, Except.pure]; rfl, ?_⟩
  refine ⟨(Good.drop v pl.held wf' ?_ ?_ (fun h => by cases h)).step, ?_, ?_, ?_, fun _ _ _ => ⟨rfl, rfl⟩⟩
  · refine Effect.removed rfl (Nat.le_refl _) rfl (Nat.le_refl _) rfl (fun _ _ => rfl) (fun _ _ => rfl)
      (fun _ _ => rfl) ?_ ?_
    · intro q hq
      exact if_neg (fun hh => hq ((hpg q).mpr hh))
    · intro q hq
      exact if_pos ((hpg q).mp hq)
  · intro q hq
    exact if_pos ((hpg q).mp hq)
  · intro j' hj
    injection hj with hj; subst hj
    refine ⟨hd, o, pl.mine.isOpen, pl.mine.only, pl.mine.names, ?_⟩
    intro q e _ he
    have he : (if p ≤ q ∧ q < p + 2 * n then Option.none else w.k.pt q) = some e := he
    split at he
    · cases he
    · rename_i hq
      exact pl.mine.pages q e hq he
  · intro j' hj
    injection hj with hj; subst hj
    exact .inl rfl
  · intro j' hj hr
    injection hj with hj; subst hj
    cases hr

/-- The last call: the ring is finished. -/
theorem finish_ok (v : w.Inv t k0) {fd pg o p n} (pl : Placed t w j j.len fd pg o p n)
    (hpt : ∀ q, p ≤ q → q < p + 2 * n →
      w.k.pt q = some ⟨o, (q - p) % n, Unix.protRW, true, true, none, false⟩) :
    (j.ring pg).Live t (w.k.close fd) ∧ (j.ring pg).base = pg ∧ (j.ring pg).bytes = 2 * j.len ∧
      (w.k.close fd).Circular t pg j.len ∧ Closed (w.k.close fd) pg j.len ∧
      ∀ q e, (area pg j.len).OnPage w.k.page q → w.k.pt q = some e → e.obj = o := by
  have hpp := v.wf.page_pos
  have wf' := v.wf.close fd
  have hpg := area_page hpp pl.start pl.pages
  have mir : (w.k.close fd).Mirror t pg j.len o := by
    rw [pl.start]
    refine Posix.mirror_of_ringPt (k' := w.k.close fd) (pt := w.k.pt) hpp pl.pos pl.pages pl.fits ?_ pl.size
    funext q
    show w.k.pt q = _
    unfold Posix.ringPt
    split
    · rename_i hq; exact hpt q hq.1 hq.2
    · rfl
  have own : Owned (w.k.close fd) pg j.len o := by
    intro q e he ho
    have he : w.k.pt q = some e := he
    have : p ≤ q ∧ q < p + 2 * n := by
      apply Classical.byContradiction
      intro hn
      rcases ho with ho | ho
      · exact pl.mine.pages q e hn he ho
      · exact (v.wf.excl q e o he ho).2.1 fd _ pl.mine.isOpen rfl
    have := (hpg q).mpr this
    exact (onPage_ring hpp (by rw [pl.start]; exact Nat.dvd_mul_left _ _) q).mp this
  have cl : Closed (w.k.close fd) pg j.len := by
    intro q e h1 h2 he
    have hq := (hpg q).mp ((onPage_ring hpp (by rw [pl.start]; exact Nat.dvd_mul_left _ _) q).mpr ⟨h1, h2⟩)
    have he : w.k.pt q = some e := he
    rw [hpt q hq.1 hq.2] at he
    injection he with he; subst he
    refine ⟨?_, pl.mine.names⟩
    intro d f hf
    have hf : (if d = fd then Option.none else w.k.fds d) = some f := hf
    split at hf
    · cases hf
    · rename_i hne; exact pl.mine.only d f hne hf
  have ho : ∀ q e, (area pg j.len).OnPage w.k.page q → w.k.pt q = some e → e.obj = o := by
    intro q e hq he
    have hq := (hpg q).mp hq
    rw [hpt q hq.1 hq.2] at he
    injection he with he; subst he; rfl
  unfold Task.ring
  split
  · exact ⟨⟨.placed wf' ⟨o, mir, own⟩ rfl rfl, cl⟩, rfl, rfl, ⟨o, mir, own⟩, cl, ho⟩
  · exact ⟨⟨.placed wf' ⟨o, mir, own⟩ rfl rfl, cl⟩, rfl, rfl, ⟨o, mir, own⟩, cl, ho⟩

theorem step_finish (v : w.Inv t k0) {fd slot : Nat} {ret : Result Nat}
    {inf : Bool} {jlen : Nat} (h : TaskInv t w ⟨jlen, inf, .finish fd ret, slot⟩) :
    ∃ k' next, RingJob.step t w.k (.finish fd ret) = .ok (k', next) ∧
      TaskStep t k0 w ⟨jlen, inf, .finish fd ret, slot⟩
        (Multi.book w ⟨jlen, inf, .finish fd ret, slot⟩ k' next) := by
  refine ⟨_, _, rfl, ?_⟩
  cases ret with
  | error e =>
    exact ⟨(Good.none v (v.wf.close fd) (close_effect _ fd _) (fun h => by cases h)).step,
      (fun j' hj => by cases hj), (fun j' hj => by cases hj), (fun j' hj => by cases hj),
      fun x _ _ => ⟨rfl, rfl⟩⟩
  | ok pg =>
    obtain ⟨hd, o, p, n, pl, hpt⟩ := h
    obtain ⟨h1, h2, h3, -⟩ := finish_ok v pl hpt
    refine ⟨(Good.change v pl.held h2 h3 (v.wf.close fd) (close_effect _ fd _) h1
      (fun h => by cases h)).step, (fun j' hj => by cases hj), (fun j' hj => by cases hj),
      (fun j' hj => by cases hj), fun x _ _ => ⟨rfl, rfl⟩⟩

/-- Every system call of a ring creation that fails cleanly keeps to the job's own things. -/
theorem task_step (v : w.Inv t k0) (h : TaskInv t w j)
    (hc : ∀ k' len fd pg e, j.job.step t w.k = .ok (k', .undo len fd pg e) → k'.pt = w.k.pt) :
    ∃ k' next, j.job.step t w.k = .ok (k', next) ∧
      TaskStep t k0 w j (Multi.book w j k' next) := by
  obtain ⟨jlen, inf, job, slot⟩ := j
  cases job with
  | memfd len => exact step_memfd v h
  | size len fd => exact step_size v h
  | abandon fd err => exact step_abandon v
  | reserve len fd => exact step_reserve v h
  | first len fd pg => exact step_first v hc h
  | second len fd pg => exact step_second v hc h
  | undo len fd pg err => exact step_undo v h
  | finish fd ret => exact step_finish v h
  | done ret => exact h.2.elim

end

/-! ### Whole programs -/

structure Multi.Inv (t : Target) (k0 : Kernel) (s : Multi) : Prop where
  w : s.w.Inv t k0
  task : ∀ i j, s.tasks i = some j → TaskInv t s.w j
  slots : ∀ i i' j j', i ≠ i' → s.tasks i = some j → s.tasks i' = some j' → j.reserved = true →
    j'.reserved = true → j.slot ≠ j'.slot
  fds : ∀ i i' j j' d, i ≠ i' → s.tasks i = some j → s.tasks i' = some j' → j.job.fd = some d →
    j'.job.fd ≠ some d

section
variable {t : Target} {k0 : Kernel} {w w' : World} {j : Task}

/-- A task's memory is booked. -/
theorem TaskInv.held (v : TaskInv t w j) (h : j.reserved = true) :
    ∃ x, w.held j.slot = some x := by
  obtain ⟨jlen, inf, job, slot⟩ := j
  obtain ⟨-, v⟩ := v
  cases job with
  | first len fd pg => obtain ⟨o, p, n, a⟩ := v; exact ⟨_, a.held⟩
  | second len fd pg => obtain ⟨o, p, n, a, -⟩ := v; exact ⟨_, a.held⟩
  | undo len fd pg err => obtain ⟨o, p, n, a⟩ := v; exact ⟨_, a.held⟩
  | finish fd ret =>
    cases ret with
    | error e => cases h
    | ok pg => obtain ⟨o, p, n, a, -⟩ := v; exact ⟨_, a.held⟩
  | _ => cases h

/-- A task's descriptor is open. -/
theorem TaskInv.isOpen (v : TaskInv t w j) {d : Nat} (h : j.job.fd = some d) :
    ∃ f, w.k.fds d = some f := by
  obtain ⟨jlen, inf, job, slot⟩ := j
  obtain ⟨-, v⟩ := v
  cases job with
  | memfd len => cases h
  | done ret => cases h
  | size len fd =>
    injection h with h; subst h
    obtain ⟨-, o, a⟩ := v; exact ⟨_, a.isOpen⟩
  | abandon fd err =>
    injection h with h; subst h
    obtain ⟨o, a⟩ := v; exact ⟨_, a.isOpen⟩
  | reserve len fd =>
    injection h with h; subst h
    obtain ⟨-, -, o, a, -⟩ := v; exact ⟨_, a.isOpen⟩
  | first len fd pg =>
    injection h with h; subst h
    obtain ⟨o, p, n, a⟩ := v; exact ⟨_, a.mine.isOpen⟩
  | second len fd pg =>
    injection h with h; subst h
    obtain ⟨o, p, n, a, -⟩ := v; exact ⟨_, a.mine.isOpen⟩
  | undo len fd pg err =>
    injection h with h; subst h
    obtain ⟨o, p, n, a⟩ := v; exact ⟨_, a.mine.isOpen⟩
  | finish fd ret =>
    injection h with h; subst h
    cases ret with
    | error e => obtain ⟨o, a⟩ := v; exact ⟨_, a.isOpen⟩
    | ok pg => obtain ⟨o, p, n, a, -⟩ := v; exact ⟨_, a.mine.isOpen⟩

/-- What leads to a task's memory. -/
theorem TaskInv.mineAt (v : TaskInv t w j) (wf : Wf t w.k) {d : Nat} (h : j.job.fd = some d) :
    ∃ o A, Mine w.k d o A ∧ ∀ q, A q → j.reserved = true ∧ ∃ x, w.held j.slot = some x ∧
      x.OnPage w.k.page q := by
  obtain ⟨jlen, inf, job, slot⟩ := j
  obtain ⟨-, v⟩ := v
  cases job with
  | memfd len => cases h
  | done ret => cases h
  | size len fd =>
    injection h with h; subst h
    obtain ⟨-, o, a⟩ := v; exact ⟨o, _, a, fun q hq => hq.elim⟩
  | abandon fd err =>
    injection h with h; subst h
    obtain ⟨o, a⟩ := v; exact ⟨o, _, a, fun q hq => hq.elim⟩
  | reserve len fd =>
    injection h with h; subst h
    obtain ⟨-, -, o, a, -⟩ := v; exact ⟨o, _, a, fun q hq => hq.elim⟩
  | first len fd pg =>
    injection h with h; subst h
    obtain ⟨o, p, n, a⟩ := v
    exact ⟨o, _, a.mine, fun q hq => ⟨rfl, _, a.held,
      (area_page wf.page_pos a.start a.pages q).mpr hq⟩⟩
  | second len fd pg =>
    injection h with h; subst h
    obtain ⟨o, p, n, a, -⟩ := v
    exact ⟨o, _, a.mine, fun q hq => ⟨rfl, _, a.held,
      (area_page wf.page_pos a.start a.pages q).mpr hq⟩⟩
  | undo len fd pg err =>
    injection h with h; subst h
    obtain ⟨o, p, n, a⟩ := v
    exact ⟨o, _, a.mine, fun q hq => ⟨rfl, _, a.held,
      (area_page wf.page_pos a.start a.pages q).mpr hq⟩⟩
  | finish fd ret =>
    injection h with h; subst h
    cases ret with
    | error e => obtain ⟨o, a⟩ := v; exact ⟨o, _, a, fun q hq => hq.elim⟩
    | ok pg =>
      obtain ⟨o, p, n, a, -⟩ := v
      exact ⟨o, _, a.mine, fun q hq => ⟨rfl, _, a.held,
        (area_page wf.page_pos a.start a.pages q).mpr hq⟩⟩

theorem Multi.Inv.start (h : Wf t k0) : Multi.Inv t k0 (Multi.start k0) :=
  ⟨.start h, (fun _ _ h => by cases h), (fun _ _ _ _ _ h => by cases h),
    (fun _ _ _ _ _ _ h => by cases h)⟩

theorem Multi.Inv.op {tab : SysTable} {s : Multi} (v : s.Inv t k0) {o : Op}
    (sane : (Move.op o).Sane t s) (h : s.w.step tab t o = .ok w') :
    Multi.Inv t k0 { s with w := w' } := by
  have st := step_ok tab v.w sane.1 h
  refine ⟨st.inv, ?_, v.slots, v.fds⟩
  intro i j hj
  exact (v.task i j hj).frame v.w.wf st (sane.2 i j hj).1 (sane.2 i j hj).2

theorem Multi.Inv.begin {s : Multi} (v : s.Inv t k0) {i hint len : Nat} {inf : Bool}
    (sane : hint + s.w.k.page < t.lim)
    (h : (Size.withSize (Unix.systemInfo s.w.k).2).round t hint = .ok len) :
    Multi.Inv t k0 (s.set i s.w (some ⟨len, inf, .memfd len, 0⟩)) := by
  have hd := (round_cases v.w.wf.page (show hint < t.lim by omega) h).2.1
  have cases : ∀ x y, (s.set i s.w (some ⟨len, inf, .memfd len, 0⟩)).tasks x = some y →
      (x = i ∧ y = ⟨len, inf, .memfd len, 0⟩) ∨ (x ≠ i ∧ s.tasks x = some y) := by
    intro x y hy
    have hy : (if x = i then some _ else s.tasks x) = some y := hy
    split at hy
    · injection hy with hy; exact .inl ⟨by assumption, hy.symm⟩
    · exact .inr ⟨by assumption, hy⟩
  refine ⟨v.w, ?_, ?_, ?_⟩
  · intro x y hy
    rcases cases x y hy with ⟨-, rfl⟩ | ⟨-, hy⟩
    · exact ⟨hd, rfl⟩
    · exact v.task x y hy
  · intro x x' y y' hne hy hy' h1 h2
    rcases cases x y hy with ⟨-, rfl⟩ | ⟨-, hy⟩
    · cases h1
    · rcases cases x' y' hy' with ⟨-, rfl⟩ | ⟨-, hy'⟩
      · cases h2
      · exact v.slots x x' y y' hne hy hy' h1 h2
  · intro x x' y y' d hne hy hy' h1 h2
    rcases cases x y hy with ⟨-, rfl⟩ | ⟨-, hy⟩
    · cases h1
    · rcases cases x' y' hy' with ⟨-, rfl⟩ | ⟨-, hy'⟩
      · cases h2
      · exact v.fds x x' y y' d hne hy hy' h1 h2

theorem Multi.Inv.ran {s : Multi} (v : s.Inv t k0) {i : Nat} {j : Task} (hj : s.tasks i = some j)
    {b : World × Option Task} (st : TaskStep t k0 s.w j b) :
    Multi.Inv t k0 (s.set i b.1 b.2) := by
  have cases : ∀ x y, (s.set i b.1 b.2).tasks x = some y →
      (x = i ∧ b.2 = some y) ∨ (x ≠ i ∧ s.tasks x = some y) := by
    intro x y hy
    have hy : (if x = i then b.2 else s.tasks x) = some y := hy
    split at hy
    · exact .inl ⟨by assumption, hy⟩
    · exact .inr ⟨by assumption, hy⟩
  have slot_lt : ∀ x y, s.tasks x = some y → y.reserved = true → y.slot < s.w.next := by
    intro x y hy hr
    obtain ⟨z, hz⟩ := (v.task x y hy).held hr
    apply Classical.byContradiction
    intro hn
    rw [v.w.unused y.slot (by omega)] at hz; cases hz
  have fd_lt : ∀ x y d, s.tasks x = some y → y.job.fd = some d → d < s.w.k.nextFd := by
    intro x y d hy hd
    obtain ⟨f, hf⟩ := (v.task x y hy).isOpen hd
    exact (v.w.wf.fds d f hf).2
  refine ⟨st.step.inv, ?_, ?_, ?_⟩
  · intro x y hy
    rcases cases x y hy with ⟨-, hy⟩ | ⟨hne, hy⟩
    · exact st.inv y hy
    · refine (v.task x y hy).frame v.w.wf st.step ?_ ?_
      · intro hr hh
        split at hh
        · rename_i hr'
          injection hh with hh
          exact v.slots x i y j hne hy hj hr hr' hh.symm
        · cases hh
      · intro hsome hh
        cases hd : j.job.fd with
        | none => exact hsome hd
        | some d =>
          rw [hd] at hh
          exact v.fds x i y j d hne hy hj hh.symm hd
  · have key : ∀ x y y', x ≠ i → s.tasks x = some y → b.2 = some y' → y.reserved = true →
        y'.reserved = true → y.slot ≠ y'.slot := by
      intro x y y' hne hy hy' h1 h2
      rcases st.slot y' hy' h2 with ⟨g1, g2⟩ | g2
      · rw [g2]; exact v.slots x i y j hne hy hj h1 g1
      · rw [g2]; have := slot_lt x y hy h1; omega
    intro x x' y y' hne hy hy' h1 h2
    rcases cases x y hy with ⟨e, hy⟩ | ⟨e, hy⟩ <;> rcases cases x' y' hy' with ⟨e', hy'⟩ | ⟨e', hy'⟩
    · exact absurd (e.trans e'.symm) hne
    · exact (key x' y' y e' hy' hy h2 h1).symm
    · exact key x y y' e hy hy' h1 h2
    · exact v.slots x x' y y' hne hy hy' h1 h2
  · have key : ∀ x y y' d, x ≠ i → s.tasks x = some y → b.2 = some y' → y.job.fd = some d →
        y'.job.fd ≠ some d := by
      intro x y y' d hne hy hy' h1 h2
      rcases st.fd y' hy' with g | g
      · exact v.fds x i y j d hne hy hj h1 (g ▸ h2)
      · rw [g] at h2
        injection h2 with h2
        have := fd_lt x y d hy h1
        omega
    intro x x' y y' d hne hy hy' h1 h2
    rcases cases x y hy with ⟨e, hy⟩ | ⟨e, hy⟩ <;> rcases cases x' y' hy' with ⟨e', hy'⟩ | ⟨e', hy'⟩
    · exact hne (e.trans e'.symm)
    · exact key x' y' y d e' hy' hy h2 h1
    · exact key x y y' d e hy hy' h1 h2
    · exact v.fds x x' y y' d hne hy hy' h1 h2

/-- A move of a ring creation, in a state that satisfies the invariant. -/
theorem run_step {tab : SysTable} {s : Multi} (v : s.Inv t k0) {i : Nat}
    (hj : s.tasks i = some j) (hc : Clean t s (.run i)) :
    ∃ k' next, j.job.step t s.w.k = .ok (k', next) ∧
      s.step tab t (.run i) = .ok (s.set i (Multi.book s.w j k' next).1
        (Multi.book s.w j k' next).2) ∧ TaskStep t k0 s.w j (Multi.book s.w j k' next) := by
  obtain ⟨k', next, h1, h2⟩ := task_step v.w (v.task i j hj) (fun k' len fd pg e h =>
    hc j k' len fd pg e hj h)
  refine ⟨k', next, h1, ?_, h2⟩
  simp only [Multi.step, hj, h1, bind, Except.bind, pure, Except.pure]

theorem ThreadReach.inv {tab : SysTable} {s : Multi} (wf : Wf t k0)
    (h : ThreadReach tab t k0 (Clean t) s) : s.Inv t k0 := by
  induction h with
  | start => exact .start wf
  | @step s s' m _ sane cond st ih =>
    cases m with
    | op o =>
      simp only [Multi.step, bind, Except.bind, pure, Except.pure] at st
      cases hw : s.w.step tab t o with
      | error e => rw [hw] at st; cases st
      | ok w' =>
        rw [hw] at st
        injection st with st
        subst st
        exact ih.op sane hw
    | begin i hint inf =>
      simp only [Multi.step, bind, Except.bind, pure, Except.pure] at st
      split at st
      · injection st with st; subst st; exact ih
      · cases hr : (Size.withSize (Unix.systemInfo s.w.k).2).round t hint with
        | error e => rw [hr] at st; cases st
        | ok len =>
          rw [hr] at st
          injection st with st
          subst st
          exact ih.begin sane hr
    | run i =>
      cases hj : s.tasks i with
      | none =>
        simp only [Multi.step, hj, pure, Except.pure] at st
        injection st with st; subst st; exact ih
      | some j =>
        obtain ⟨k', next, -, h2, h3⟩ := run_step (tab := tab) ih hj cond
        rw [h2] at st
        injection st with st
        subst st
        exact ih.ran hj h3

end

/-! ### Single calls, in any state -/

/-- A `mmap` that fails without unmapping anything. -/
theorem mmap_clean {t : Target} {k k' : Kernel} {addr len prot flags fd off e}
    (hc : k.now.clobber = false) (h : k.mmap t addr len prot flags fd off = (k', .error e)) :
    k'.pt = k.pt := by
  have hcl : ∀ (k1 : Kernel) (c : Choice) p n src idx mw, c.clobber = false →
      ∀ k2, k1.mmapAt t c p n src idx prot flags mw = (k2, .error e) → k2.pt = k1.pt := by
    intro k1 c p n src idx mw hc k2 h
    unfold mmapAt at h
    split at h
    · injection h with h; rw [← h]
    · split at h
      · injection h with h; rw [← h]
      · split at h
        · rw [hc, Bool.and_false] at h
          injection h with h; rw [← h]; rfl
        · split at h <;> (injection h with h1 h2; cases h2)
  unfold Kernel.mmap record at h
  generalize hx : mmapCore t k addr len prot flags fd off = x at h
  obtain ⟨k1, r⟩ := x
  injection h with h1 h2
  simp only at h1 h2
  subst h2
  rw [← h1]
  show k1.pt = k.pt
  unfold mmapCore at hx
  dsimp only at hx
  split at hx
  · injection hx with hx; rw [← hx]; rfl
  · split at hx
    · injection hx with hx; rw [← hx]; rfl
    · split at hx
      · split at hx
        · injection hx with hx; rw [← hx]; rfl
        · exact (hcl _ _ _ _ _ _ _ hc _ hx).trans rfl
      · exact (hcl _ _ _ _ _ _ _ hc _ hx).trans rfl

theorem map_clean {t : Target} {k k' : Kernel} {op pg len flags fd e}
    (hc : k.now.clobber = false) (h : Posix.map t k op pg len flags fd = (k', .error e)) :
    k'.pt = k.pt := by
  cases hm : k.mmap t pg len Unix.protRW flags fd 0 with
  | mk k1 r =>
    simp only [Posix.map, hm, wrapErr] at h
    cases r with
    | ok x => cases h
    | error x =>
      cases h
      exact mmap_clean hc hm

/-- A kernel whose `mmap` unmaps nothing when it fails. -/
theorem clean_of_clobber {t : Target} {s : Multi} (hc : s.w.k.now.clobber = false) (m : Move) :
    Clean t s m := by
  cases m with
  | op o => trivial
  | begin i hint inf => trivial
  | run i =>
    intro j k' len fd pg e _ h
    generalize j.job = job at h
    cases job <;> simp only [RingJob.step, bind, Except.bind, pure, Except.pure] at h
    case memfd =>
      rcases hx : Posix.memfdOpen s.w.k with ⟨k1, e | fd⟩ <;> rw [hx] at h <;> cases h
    case size len fd =>
      rcases hx : s.w.k.ftruncate t fd len with ⟨k1, e | fd⟩ <;> rw [hx] at h <;> cases h
    case reserve len fd =>
      rcases hn : mulU t len 2 with e | n <;> rw [hn] at h
      · cases h
      · dsimp only at h
        rcases hx : Posix.map t s.w.k .ringAllocate 0 n { priv := true, anon := true } none with
          ⟨k1, e | pg⟩ <;> rw [hx] at h <;> cases h
    case first len fd pg =>
      rcases hx : Posix.map t s.w.k .ringPrimary pg len { shared := true, fixed := true }
        (some fd) with ⟨k1, e | pg⟩ <;> rw [hx] at h <;> cases h
      exact map_clean hc hx
    case second len fd pg =>
      rcases hx : Posix.map t s.w.k .ringSecondary (pg + len) len { shared := true, fixed := true }
        (some fd) with ⟨k1, e | pg⟩ <;> rw [hx] at h <;> cases h
      exact map_clean hc hx
    case undo len fd pg err =>
      rcases hx : Posix.unmapRing t s.w.k pg len with x | ⟨k1, r⟩ <;> rw [hx] at h <;> cases h
    all_goals cases h

/-- The calls that a ring creation has before it at most. -/
def RingJob.left : RingJob → Nat
  | .memfd _ => 7
  | .size .. => 6
  | .reserve .. => 5
  | .first .. => 4
  | .second .. => 3
  | .undo .. => 2
  | .abandon .. => 1
  | .finish .. => 1
  | .done _ => 0

theorem RingJob.left_step {t : Target} {k k' : Kernel} {j j' : RingJob}
    (h : j.step t k = .ok (k', j')) : j'.left ≤ j.left - 1 := by
  cases j <;> simp only [RingJob.step, bind, Except.bind, pure, Except.pure] at h
  case memfd =>
    rcases hx : Posix.memfdOpen k with ⟨k1, e | fd⟩ <;> rw [hx] at h <;> cases h <;>
      simp [RingJob.left]
  case size len fd =>
    rcases hx : k.ftruncate t fd len with ⟨k1, e | fd⟩ <;> rw [hx] at h <;> cases h <;>
      simp [RingJob.left]
  case reserve len fd =>
    rcases hn : mulU t len 2 with e | n <;> rw [hn] at h
    · cases h
    · dsimp only at h
      rcases hx : Posix.map t k .ringAllocate 0 n { priv := true, anon := true } none with
        ⟨k1, e | pg⟩ <;> rw [hx] at h <;> cases h <;> simp [RingJob.left]
  case first len fd pg =>
    rcases hx : Posix.map t k .ringPrimary pg len { shared := true, fixed := true } (some fd) with
      ⟨k1, e | pg⟩ <;> rw [hx] at h <;> cases h <;> simp [RingJob.left]
  case second len fd pg =>
    rcases hx : Posix.map t k .ringSecondary (pg + len) len { shared := true, fixed := true }
      (some fd) with ⟨k1, e | pg⟩ <;> rw [hx] at h <;> cases h <;> simp [RingJob.left]
  case undo len fd pg err =>
    rcases hx : Posix.unmapRing t k pg len with x | ⟨k1, r⟩ <;> rw [hx] at h <;> cases h <;>
      simp [RingJob.left]
  all_goals cases h; simp [RingJob.left]


/-- The only way to return a ring. -/
theorem RingJob.step_done {t : Target} {k k' : Kernel} {j : RingJob} {ptr : Nat}
    (h : j.step t k = .ok (k', .done (.ok ptr))) :
    j = .done (.ok ptr) ∨ ∃ fd, j = .finish fd (.ok ptr) ∧ k' = k.close fd := by
  cases j <;> simp only [RingJob.step, bind, Except.bind, pure, Except.pure] at h
  case memfd =>
    rcases hx : Posix.memfdOpen k with ⟨k1, e | fd⟩ <;> rw [hx] at h <;> cases h
  case size len fd =>
    rcases hx : k.ftruncate t fd len with ⟨k1, e | fd⟩ <;> rw [hx] at h <;> cases h
  case reserve len fd =>
    rcases hn : mulU t len 2 with e | n <;> rw [hn] at h
    · cases h
    · dsimp only at h
      rcases hx : Posix.map t k .ringAllocate 0 n { priv := true, anon := true } none with
        ⟨k1, e | pg⟩ <;> rw [hx] at h <;> cases h
  case first len fd pg =>
    rcases hx : Posix.map t k .ringPrimary pg len { shared := true, fixed := true } (some fd) with
      ⟨k1, e | pg⟩ <;> rw [hx] at h <;> cases h
  case second len fd pg =>
    rcases hx : Posix.map t k .ringSecondary (pg + len) len { shared := true, fixed := true }
      (some fd) with ⟨k1, e | pg⟩ <;> rw [hx] at h <;> cases h
  case undo len fd pg err =>
    rcases hx : Posix.unmapRing t k pg len with x | ⟨k1, r⟩ <;> rw [hx] at h <;> cases h
  case done => cases h; exact .inl rfl
  case finish => cases h; exact .inr ⟨_, rfl, rfl⟩
  case abandon => cases h

theorem map_fds {t : Target} {k k' : Kernel} {op pg len flags fd r}
    (h : Posix.map t k op pg len flags fd = (k', r)) : k'.fds = k.fds := by
  rcases mmap_cases t k pg len Unix.protRW flags fd 0 with
    ⟨pt', e, e1, -, -⟩ | ⟨p', e1, -, -, e4, e5, e6, -, ⟨-, e8⟩ | ⟨-, d, f, -, -, -, -, e8⟩⟩
  · simp only [Posix.map, e1, wrapErr] at h
    cases h; rfl
  · simp only [Posix.map, e8, wrapErr] at h
    cases h; rfl
  · simp only [Posix.map, e8, wrapErr] at h
    cases h; rfl

theorem unmapRing_fds {t : Target} {k k' : Kernel} {pg len r}
    (h : Posix.unmapRing t k pg len = .ok (k', r)) : k'.fds = k.fds := by
  simp only [Posix.unmapRing, bind, Except.bind] at h
  cases hm : mulU t 2 len with
  | error e => rw [hm] at h; cases h
  | ok n =>
    rw [hm] at h
    injection h with h
    simp only [Unix.unmap, Kernel.munmap, record, munmapCore] at h
    split at h <;> (simp only [wrapErr] at h; cases h; rfl)

end Vmap
