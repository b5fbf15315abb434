import Verif.Spec.World
import Verif.Proofs.RangeOp
import Verif.Proofs.Open
import Verif.Props.Ring
/- Helper lemmas: one step of a program, and what it leaves alone. -/
namespace Vmap
open Kernel Spec

/-- No descriptor of `D`, no name and no page of `S` has to do with object `o`. -/
structure Hid (k : Kernel) (S D : Nat → Prop) (o : Obj) : Prop where
  old : o < k.fresh
  fds : ∀ d f, D d → k.fds d = some f → f.obj ≠ o
  names : ∀ s, k.names s ≠ some o
  pages : ∀ q e, S q → k.pt q = some e → e.obj ≠ o ∧ e.copy ≠ some o

/-- What every step does: page-table entries change only on the pages `S`, and open descriptors only
in `U`; an object hidden from those keeps its contents and stays hidden; storage only takes over
current contents. -/
structure Effect (k k' : Kernel) (S U : Nat → Prop) : Prop where
  page : k'.page = k.page
  fresh : k.fresh ≤ k'.fresh
  pt : ∀ q, ¬ S q → k'.pt q = k.pt q
  hid : ∀ D o, (∀ d, U d → D d) → Hid k S D o →
    k'.data o = k.data o ∧ k'.size o = k.size o ∧ Hid k' S D o
  disk : ∀ o i, o < k.fresh → k'.disk o i = k.disk o i ∨ k'.disk o i = k.data o i
  nextFd : k.nextFd ≤ k'.nextFd
  fdsame : ∀ d, d < k.nextFd → ¬ U d → k'.fds d = k.fds d

/-- No page (or descriptor) at all. -/
def noPage : Nat → Prop := fun _ => False

/-- Every descriptor. -/
def anyFd : Nat → Prop := fun _ => True

theorem Effect.refl (k : Kernel) (S U) : Effect k k S U :=
  ⟨rfl, Nat.le_refl _, fun _ _ => rfl, fun _ _ _ h => ⟨rfl, rfl, h⟩, fun _ _ _ => .inl rfl,
    Nat.le_refl _, fun _ _ _ => rfl⟩

/-- Nothing but bookkeeping, and descriptors that vanish. -/
theorem Effect.same {k k' : Kernel} (h1 : k'.page = k.page) (h2 : k'.pt = k.pt)
    (h3 : k'.data = k.data) (h4 : k'.size = k.size)
    (h5 : ∀ d f, k'.fds d = some f → k.fds d = some f) (h6 : k'.names = k.names)
    (h7 : k.fresh ≤ k'.fresh) (h8 : k'.disk = k.disk) (S U) (h9 : k.nextFd ≤ k'.nextFd)
    (h10 : ∀ d, d < k.nextFd → ¬ U d → k'.fds d = k.fds d) : Effect k k' S U := by
  refine ⟨h1, h7, fun q _ => by rw [h2], ?_, fun o i _ => .inl (by rw [h8]), h9, h10⟩
  intro D o _ h
  refine ⟨by rw [h3], by rw [h4], ?_⟩
  exact ⟨Nat.lt_of_lt_of_le h.old h7, fun d f hD hd => h.fds d f hD (h5 d f hd), by rw [h6]; exact h.names,
    by rw [h2]; exact h.pages⟩

/-- One step after another; the second may also use the descriptors that the first has opened. -/
theorem Effect.trans {t : Target} {a b c : Kernel} {S U U' : Nat → Prop} (w : Wf t a)
    (h : Effect a b S U) (h' : Effect b c S U') (hU : ∀ d, U' d → U d ∨ a.nextFd ≤ d)
    (hd : ∀ o i, o < a.fresh → c.disk o i = a.disk o i ∨ c.disk o i = a.data o i) :
    Effect a c S U := by
  refine ⟨h'.page.trans h.page, Nat.le_trans h.fresh h'.fresh,
    fun q hq => (h'.pt q hq).trans (h.pt q hq), ?_, hd, Nat.le_trans h.nextFd h'.nextFd, ?_⟩
  · intro D o hD ho
    have ho' : Hid a S (fun d => D d ∨ a.nextFd ≤ d) o := by
      refine ⟨ho.old, ?_, ho.names, ho.pages⟩
      intro d f hd hf
      rcases hd with hd | hd
      · exact ho.fds d f hd hf
      · have := (w.fds d f hf).2
        omega
    obtain ⟨a1, a2, a3⟩ := h.hid _ o (fun d hd => .inl (hD d hd)) ho'
    obtain ⟨b1, b2, b3⟩ := h'.hid _ o (fun d hd => (hU d hd).imp (hD d) id) a3
    exact ⟨b1.trans a1, b2.trans a2, b3.old, fun d f hd => b3.fds d f (.inl hd), b3.names, b3.pages⟩
  · intro d h1 h2
    rw [h'.fdsame d (Nat.lt_of_lt_of_le h1 h.nextFd), h.fdsame d h1 h2]
    intro h3
    rcases hU d h3 with h4 | h4
    · exact h2 h4
    · omega

theorem Hid.mono {k : Kernel} {S S' D : Nat → Prop} {o} (h : Hid k S D o)
    (hs : ∀ q, S' q → S q) : Hid k S' D o :=
  ⟨h.old, h.fds, h.names, fun q e hq => h.pages q e (hs q hq)⟩

/-- A larger set of pages and descriptors. -/
theorem Effect.mono {k k' : Kernel} {S S' U U' : Nat → Prop} (h : Effect k k' S U)
    (hs : ∀ q, S q → S' q) (hu : ∀ d, U d → U' d) : Effect k k' S' U' := by
  classical
  refine ⟨h.page, h.fresh, fun q hq => h.pt q (fun hq' => hq (hs q hq')), ?_, h.disk, h.nextFd,
    fun d h1 h2 => h.fdsame d h1 (fun h3 => h2 (hu d h3))⟩
  intro D o hD ho
  obtain ⟨a1, a2, a3⟩ := h.hid D o (fun d hd => hD d (hu d hd)) (ho.mono hs)
  refine ⟨a1, a2, a3.old, a3.fds, a3.names, ?_⟩
  intro q e hq he
  by_cases hS : S q
  · exact a3.pages q e hS he
  · rw [h.pt q hS] at he
    exact ho.pages q e hq he

/-! ### Effects of the calls -/

theorem onPage_iff {t : Target} {u ptr len p n : Nat} (g : Pages t u ptr len p n) (q : Nat) :
    OnPage u ptr len q ↔ p ≤ q ∧ q < p + n := by
  have h1 := g.lower
  have h2 := g.lower'
  have h3 := g.upper
  have h4 := g.upper'
  have a1 : (p + n) * u = p * u + n * u := Nat.add_mul _ _ _
  constructor
  · rintro ⟨b1, b2⟩
    constructor
    · apply Decidable.byContradiction
      intro hn
      have := Nat.mul_le_mul_right u (show q + 1 ≤ p by omega)
      omega
    · apply Decidable.byContradiction
      intro hn
      have := Nat.mul_le_mul_right u (show p + n ≤ q by omega)
      omega
  · rintro ⟨b1, b2⟩
    have c1 := Nat.mul_le_mul_right u b1
    have c2 := Nat.mul_le_mul_right u (show q + 1 ≤ p + n by omega)
    have c3 : (q + 1) * u = q * u + u := Nat.succ_mul _ _
    exact ⟨by omega, by omega⟩

theorem onPage_ring {u ptr len : Nat} (hu : 0 < u) (hp : u ∣ ptr) (q : Nat) :
    OnPage u ptr (2 * len) q ↔ ptr ≤ q * u ∧ q * u < ptr + 2 * len := by
  obtain ⟨c, hc⟩ := hp
  have c3 : (q + 1) * u = q * u + u := Nat.succ_mul _ _
  constructor
  · rintro ⟨h1, h2⟩
    refine ⟨?_, h1⟩
    have : c < q + 1 := by
      apply Nat.lt_of_mul_lt_mul_right (a := u)
      rw [Nat.mul_comm c, ← hc]; exact h2
    have := Nat.mul_le_mul_right u (show c ≤ q by omega)
    rw [Nat.mul_comm c, ← hc] at this
    exact this
  · rintro ⟨h1, h2⟩
    exact ⟨h2, by omega⟩

theorem Kernel.Created.effect {t : Target} {k k' : Kernel} {ptr len o off sh mw prot p n}
    {S U : Nat → Prop} (c : Created t k k' ptr len o off sh mw prot p n)
    (hS : ∀ q, OnPage k.page ptr len q → S q) (hp : k'.page = k.page) (hf : k.fresh ≤ k'.fresh)
    (hfd : k'.fds = k.fds) (hnx : k'.nextFd = k.nextFd) (hn : k'.names = k.names)
    (hd : k'.disk = k.disk)
    (ho : ∀ D x, (∀ d, U d → D d) → Hid k S D x →
      x ≠ o ∧ k'.data x = k.data x ∧ k'.size x = k.size x) :
    Effect k k' S U := by
  refine ⟨hp, hf, ?_, ?_, fun o i _ => .inl (by rw [hd]), Nat.le_of_eq hnx.symm,
    fun d _ _ => by rw [hfd]⟩
  · intro q hq
    exact c.others q (fun h => hq (hS q ((onPage_iff c.pages q).mpr h)))
  · intro D x hD hx
    obtain ⟨h1, h2, h3⟩ := ho D x hD hx
    refine ⟨h2, h3, Nat.lt_of_lt_of_le hx.old hf, by rw [hfd]; exact hx.fds,
      by rw [hn]; exact hx.names, ?_⟩
    intro q e hq he
    by_cases hin : p ≤ q ∧ q < p + n
    · obtain ⟨e', g1, g2, -, g3, -⟩ := c.mapped q hin.1 hin.2
      rw [he] at g1
      injection g1 with g1
      subst g1
      exact ⟨by rw [g3]; exact h1.symm, by rw [g2]; intro h; cases h⟩
    · rw [c.others q hin] at he
      exact hx.pages q e hq he

theorem MapIfKeeps.effect {t : Target} {o : Options} {k k' : Kernel} {fd r}
    (h : MapIfKeeps t o k k' fd r) {S : Nat → Prop}
    (hS : ∀ m, r = .ok (some m) → ∀ q, OnPage k.page m.ptr m.len q → S q) :
    Effect k k' S (fun d => some fd = some d) := by
  have ho : ∀ D x, (∀ d, some fd = some d → D d) → Hid k S D x →
      (∀ f, k.fds fd = some f → x ≠ f.obj) :=
    fun D x hD hx f hf => (hx.fds fd f (hD fd rfl) hf).symm
  by_cases hr : ∀ m, r ≠ .ok (some m)
  · refine ⟨h.page, Nat.le_of_eq h.fresh.symm, fun q _ => by rw [h.pt hr], ?_,
      fun o i _ => .inl (by rw [h.disk]), Nat.le_of_eq h.nextFd.symm, fun d _ _ => by rw [h.fds]⟩
    intro D x hD hx
    obtain ⟨h1, h2⟩ := h.files x (ho D x hD hx)
    exact ⟨h2, h1, by rw [h.fresh]; exact hx.old, by rw [h.fds]; exact hx.fds,
      by rw [h.names]; exact hx.names, by rw [h.pt hr]; exact hx.pages⟩
  · obtain ⟨m, hm⟩ : ∃ m, r = .ok (some m) := Classical.byContradiction fun hn =>
      hr (fun m hm => hn ⟨m, hm⟩)
    obtain ⟨f, p, n, hf, -, -, -, c⟩ := h.made m hm
    refine c.effect (hS m hm) h.page (Nat.le_of_eq h.fresh.symm) h.fds h.nextFd h.names
      h.disk ?_
    intro D x hD hx
    obtain ⟨h1, h2⟩ := h.files x (ho D x hD hx)
    exact ⟨ho D x hD hx f hf, h2, h1⟩

theorem OpenOutcome.effect {tab : SysTable} {k k' : Kernel} {o path r}
    (h : OpenOutcome tab k o path k' r) (S U : Nat → Prop) : Effect k k' S U := by
  cases h with
  | refused => exact Effect.refl _ _ _
  | failed =>
    exact Effect.same (by rfl) (by rfl) (by rfl) (by rfl) (by exact fun _ _ h => h) (by rfl)
      (by exact Nat.le_refl _) (by rfl) _ _ (by exact Nat.le_refl _) (by exact fun _ _ _ => rfl)
  | existing _ x name _ _ state others _ _ =>
    obtain ⟨e1, e2, e3, e4, e5, e6, e7⟩ : k'.page = k.page ∧ k'.pt = k.pt ∧ k'.names = k.names ∧
        k'.fresh = k.fresh ∧ k'.disk = k.disk ∧ k'.fds = (fun d => if d = k.nextFd then
          some ⟨x, true, o.write⟩ else k.fds d) ∧ k'.nextFd = k.nextFd + 1 := by
      rw [state]; exact ⟨rfl, rfl, rfl, rfl, rfl, rfl, rfl⟩
    refine ⟨e1, Nat.le_of_eq e4.symm, fun q _ => by rw [e2], ?_, fun o i _ => .inl (by rw [e5]),
      by omega, fun d hd _ => by rw [e6]; exact if_neg (by omega)⟩
    intro D y _ hy
    have hne : y ≠ x := fun h => hy.names path (by rw [h]; exact name)
    obtain ⟨h1, h2⟩ := others y hne
    refine ⟨h2, h1, by rw [e4]; exact hy.old, ?_, by rw [e3]; exact hy.names,
      by rw [e2]; exact hy.pages⟩
    intro d f hD hd
    rw [e6] at hd
    dsimp only at hd
    split at hd
    · injection hd with hd; subst hd; exact hne.symm
    · exact hy.fds d f hD hd
  | created =>
    refine ⟨rfl, Nat.le_succ _, fun q _ => rfl, ?_, fun o i _ => .inl rfl, Nat.le_succ _,
      fun d hd _ => if_neg (Nat.ne_of_lt hd)⟩
    intro D y _ hy
    have hne : y ≠ k.fresh := by have := hy.old; omega
    refine ⟨funext fun _ => if_neg hne, if_neg hne, Nat.lt_succ_of_lt hy.old, ?_, ?_, hy.pages⟩
    · intro d f hD hd
      dsimp only at hd
      split at hd
      · injection hd with hd; subst hd; exact hne.symm
      · exact hy.fds d f hD hd
    · intro s hs
      dsimp only at hs
      split at hs
      · injection hs with hs; exact hne hs.symm
      · exact hy.names s hs

theorem Spec.OnlyRange.effect {k k' : Kernel} {p n : Nat} (h : OnlyRange k k' p n)
    (hd : ∀ o i, k'.disk o i = k.disk o i ∨ k'.disk o i = k.data o i) {S U : Nat → Prop}
    (hS : ∀ q, p ≤ q → q < p + n → S q) : Effect k k' S U := by
  refine ⟨h.page, Nat.le_of_eq h.fresh.symm, ?_, ?_, fun o i _ => hd o i,
    Nat.le_of_eq h.nextFd.symm, fun d _ _ => by rw [h.fds]⟩
  · intro q hq
    exact h.outside q (fun hin => hq (hS q hin.1 hin.2))
  · intro D x _ hx
    refine ⟨by rw [h.data], by rw [h.size], by rw [h.fresh]; exact hx.old,
      by rw [h.fds]; exact hx.fds, by rw [h.names]; exact hx.names, ?_⟩
    intro q e hq he
    cases h0 : k.pt q with
    | none => rw [h.unmapped q h0] at he; cases he
    | some e0 =>
      obtain ⟨e', g1, g2, -, -, -, g3⟩ := h.inside q e0 h0
      rw [he] at g1
      injection g1 with g1
      subst g1
      obtain ⟨h1, h2⟩ := hx.pages q e0 hq h0
      refine ⟨by rw [g2]; exact h1, ?_⟩
      rcases g3 with g3 | g3
      · rw [g3]; exact h2
      · rw [g3]; intro h; cases h

/-- Pages that were removed. -/
theorem Effect.removed {k k' : Kernel} {S U : Nat → Prop} (h1 : k'.page = k.page)
    (hf : k.fresh ≤ k'.fresh) (hfd : k'.fds = k.fds) (hnx : k.nextFd ≤ k'.nextFd) (hn : k'.names = k.names)
    (hd : ∀ o, o < k.fresh → k'.data o = k.data o) (hs : ∀ o, o < k.fresh → k'.size o = k.size o)
    (hdk : ∀ o, o < k.fresh → k'.disk o = k.disk o)
    (hpt : ∀ q, ¬ S q → k'.pt q = k.pt q) (hgone : ∀ q, S q → k'.pt q = none) :
    Effect k k' S U := by
  refine ⟨h1, hf, hpt, ?_, fun o i ho => .inl (by rw [hdk o ho]), hnx, fun d _ _ => by rw [hfd]⟩
  intro D x _ hx
  refine ⟨hd x hx.old, hs x hx.old, Nat.lt_of_lt_of_le hx.old hf, by rw [hfd]; exact hx.fds,
    by rw [hn]; exact hx.names, ?_⟩
  intro q e hq he
  rw [hgone q hq] at he
  cases he

/-- Changing bytes of one object. -/
theorem Effect.setByte {k : Kernel} (o i b) {S U : Nat → Prop}
    (h : ∀ D x, (∀ d, U d → D d) → Hid k S D x → x ≠ o) : Effect k (k.setByte o i b) S U := by
  refine ⟨rfl, Nat.le_refl _, fun _ _ => rfl, ?_, fun _ _ _ => .inl rfl, Nat.le_refl _,
    fun _ _ _ => rfl⟩
  intro D x hD hx
  refine ⟨?_, rfl, hx.old, hx.fds, hx.names, hx.pages⟩
  funext j
  exact if_neg (fun hh => h D x hD hx hh.1)

/-- A store: consistency and effect. -/
theorem store_effect {t : Target} {k k' : Kernel} (w : Wf t k) {a : Nat} {b : Byte}
    (h : k.store a b = .ok k') {S U : Nat → Prop} (hS : S (a / k.page)) :
    Wf t k' ∧ Effect k k' S U ∧ StoreFx k k' := by
  unfold Kernel.store at h
  cases he : k.pt (a / k.page) with
  | none => rw [he] at h; cases h
  | some e =>
    rw [he] at h
    dsimp only at h
    by_cases hb : (e.prot.w && k.backed e) = true
    · rw [if_pos hb] at h
      by_cases hs : e.shared = true
      · rw [if_pos hs] at h
        injection h with h
        subst h
        refine ⟨w.setByte _ _ _, Effect.setByte _ _ _ ?_, StoreFx.setByte _ _ _ _⟩
        intro D x _ hx
        exact (hx.pages _ e hS he).1.symm
      · rw [if_neg hs] at h
        have hs' : e.shared = false := by simpa using hs
        cases hc : e.copy with
        | some c =>
          rw [hc] at h
          injection h with h
          subst h
          refine ⟨w.setByte _ _ _, Effect.setByte _ _ _ ?_, StoreFx.setByte _ _ _ _⟩
          intro D x _ hx hxc
          exact (hx.pages _ e hS he).2 (by rw [hxc]; exact hc)
        | none =>
          rw [hc] at h
          injection h with h
          subst h
          refine ⟨(w.breakCow he hs').setByte _ _ _, ?_, ?_⟩
          · refine ⟨rfl, Nat.le_succ _, ?_, ?_, fun _ _ _ => .inl rfl, Nat.le_refl _,
              fun _ _ _ => rfl⟩
            · intro q hq
              exact if_neg (fun hh => hq (by rw [hh]; exact hS))
            · intro D x _ hx
              have hne : x ≠ k.fresh := by have := hx.old; omega
              refine ⟨?_, rfl, Nat.lt_succ_of_lt hx.old, hx.fds, hx.names, ?_⟩
              · funext j
                show (if x = k.fresh ∧ j = a % k.page then b else
                  if x = k.fresh then _ else k.data x j) = _
                rw [if_neg (fun hh => hne hh.1), if_neg hne]
              · intro q e' hq he'
                have he' : (if q = a / k.page then some { e with copy := some k.fresh } else k.pt q)
                    = some e' := he'
                split at he'
                · injection he' with he'
                  subst he'
                  refine ⟨(hx.pages _ e hS he).1, ?_⟩
                  intro hh
                  injection hh with hh
                  exact hne hh.symm
                · exact hx.pages q e' hq he'
          · refine ⟨rfl, rfl, rfl, rfl, rfl, rfl, rfl, rfl, rfl, Nat.le_succ _, ?_⟩
            intro q
            show (if q = a / k.page then some { e with copy := some k.fresh } else k.pt q) = _ ∨ _
            by_cases hq : q = a / k.page
            · refine .inr ⟨e, k.fresh, by rw [hq]; exact he, hs', ?_⟩
              exact if_pos hq
            · exact .inl (if_neg hq)
    · rw [if_neg hb] at h
      cases h

/-! ### What a program holds -/

/-- No descriptor and no name refers to the memory behind the ring at `[ptr, ptr+2*len)`. -/
def Closed (k : Kernel) (ptr len : Nat) : Prop :=
  ∀ p e, ptr ≤ p * k.page → p * k.page < ptr + 2 * len → k.pt p = some e →
    (∀ d f, k.fds d = some f → f.obj ≠ e.obj) ∧ ∀ s, k.names s ≠ some e.obj

/-- The entries of a ring's pages. -/
theorem Kernel.Mirror.entry {t : Target} {k : Kernel} {ptr len o} (w : Wf t k)
    (m : k.Mirror t ptr len o) {p : Nat} (h1 : ptr ≤ p * k.page)
    (h2 : p * k.page < ptr + 2 * len) : ∃ e, k.pt p = some e ∧ e.obj = o ∧ e.copy = none := by
  obtain ⟨e, g1, -, -, -, g2, g3, -⟩ := m.shows' (p * k.page - ptr) (by omega)
  rw [show ptr + (p * k.page - ptr) = p * k.page by omega, Nat.mul_div_cancel _ w.page_pos] at g1
  exact ⟨e, g1, g3, g2⟩

/-- A step elsewhere is "other activity" for a ring. -/
theorem Effect.apart {t : Target} {k k' : Kernel} {S U : Nat → Prop} {ptr len o} (w : Wf t k)
    (w' : Wf t k') (h : Effect k k' S U) (m : k.Mirror t ptr len o) (ow : Owned k ptr len o)
    (cl : Closed k ptr len)
    (hS : ∀ q, ptr ≤ q * k.page → q * k.page < ptr + 2 * len → ¬ S q) :
    Apart t k k' ptr len ∧ Closed k' ptr len := by
  have h0 := m.len_pos
  have hin := page_inside (a := ptr + 0) (len := len) m.ptr_dvd w.page_pos (by omega) (by omega)
  obtain ⟨e0, a1, a2, a3⟩ := m.entry w hin.1 hin.2
  have hh : Hid k S anyFd o := by
    obtain ⟨c1, c2⟩ := cl _ e0 hin.1 hin.2 a1
    refine ⟨by rw [← a2]; exact (w.objs _ e0 a1).1, by rw [← a2]; exact fun d f _ => c1 d f,
      by rw [← a2]; exact c2, ?_⟩
    intro q e hq he
    constructor
    · intro ho
      obtain ⟨b1, b2⟩ := ow q e he (.inl ho)
      exact hS q b1 b2 hq
    · intro ho
      obtain ⟨b1, b2⟩ := ow q e he (.inr ho)
      exact hS q b1 b2 hq
  obtain ⟨d1, d2, d3⟩ := h.hid anyFd o (fun _ _ => trivial) hh
  refine ⟨⟨h.page, fun p _ b1 b2 he => pt_kept (h.pt p (hS p b1 b2)) he, ?_, ?_, w'⟩, ?_⟩
  · intro p e b1 b2 he
    obtain ⟨e1, c1, c2, -⟩ := m.entry w b1 b2
    rw [he] at c1; injection c1 with c1; subst c1
    rw [c2]; exact ⟨d1, d2⟩
  · intro p e b1 b2 he q e' he' ho
    obtain ⟨e1, c1, c2, -⟩ := m.entry w b1 b2
    rw [he] at c1; injection c1 with c1; subst c1
    rw [c2] at ho
    by_cases hq : S q
    · obtain ⟨f1, f2⟩ := d3.pages q e' hq he'
      rcases ho with ho | ho
      · exact absurd ho f1
      · exact absurd ho f2
    · rw [h.pt q hq] at he'
      exact ow q e' he' ho
  · intro p e b1 b2 he
    rw [h.page] at b1 b2
    rw [h.pt p (hS p b1 b2)] at he
    obtain ⟨e1, c1, c2, -⟩ := m.entry w b1 b2
    rw [he] at c1; injection c1 with c1; subst c1
    rw [c2]
    exact ⟨fun d f => d3.fds d f trivial, d3.names⟩

/-- What the program may rely on for a thing it holds. -/
def Handle.Live (t : Target) (k : Kernel) : Handle → Prop
  | .map m => ∃ p n, Kernel.Live t k m p n
  | .ring r n => RingAt t k r n ∧ Closed k r.ptr r.len
  | .inf r n => InfAt t k r n ∧ Closed k r.ptr r.len

theorem Handle.Live.mapped {t : Target} {k : Kernel} {h : Handle} (w : Wf t k) (l : h.Live t k)
    {q : Nat} (hq : h.OnPage k.page q) : ∃ e, k.pt q = some e := by
  cases h with
  | map m =>
    obtain ⟨p, n, g⟩ := l
    obtain ⟨h1, h2⟩ := (onPage_iff g.pages q).mp hq
    exact g.mapped q h1 h2
  | ring r n =>
    obtain ⟨o, s, h1, -⟩ := l.1.inv
    obtain ⟨a, b⟩ := (onPage_ring w.page_pos h1.mirror.ptr_dvd q).mp hq
    obtain ⟨e, he, -⟩ := h1.mirror.entry w a b
    exact ⟨e, he⟩
  | inf r n =>
    obtain ⟨o, s, h1, -⟩ := l.1.inv
    obtain ⟨a, b⟩ := (onPage_ring w.page_pos h1.mirror.ptr_dvd q).mp hq
    obtain ⟨e, he, -⟩ := h1.mirror.entry w a b
    exact ⟨e, he⟩

/-- A step elsewhere leaves a handle as it is. -/
theorem Handle.Live.other {t : Target} {k k' : Kernel} {S U : Nat → Prop} {h : Handle} (w : Wf t k)
    (w' : Wf t k') (l : h.Live t k) (fx : Effect k k' S U)
    (hS : ∀ q, h.OnPage k.page q → ¬ S q) : h.Live t k' := by
  cases h with
  | map m =>
    obtain ⟨p, n, g⟩ := l
    refine ⟨p, n, by rw [fx.page]; exact g.pages, ?_⟩
    intro q h1 h2
    rw [fx.pt q (hS q ((onPage_iff g.pages q).mpr ⟨h1, h2⟩))]
    exact g.mapped q h1 h2
  | ring r n =>
    obtain ⟨o, s, h1, h2, h3, -⟩ := l.1.inv
    obtain ⟨a, c⟩ := fx.apart w w' h1.mirror h3 l.2
      (fun q a b => hS q ((onPage_ring w.page_pos h1.mirror.ptr_dvd q).mpr ⟨a, b⟩))
    exact ⟨.other l.1 a, c⟩
  | inf r n =>
    obtain ⟨o, s, h1, h2, h3, -⟩ := l.1.inv
    obtain ⟨a, c⟩ := fx.apart w w' h1.mirror h3 l.2
      (fun q a b => hS q ((onPage_ring w.page_pos h1.mirror.ptr_dvd q).mpr ⟨a, b⟩))
    exact ⟨.other l.1 a, c⟩

end Vmap
