import Verif.Spec.WinGuard
import Verif.Spec.WinSpan
import Verif.Proofs.WinSpan
import Verif.Proofs.WinMapTests
/-
Helper lemmas for C167.
-/
namespace Vmap
open Spec

/-- One byte is written. -/
theorem Spec.WinWritable.store {v : WinView} {s : Vmap.Win} {ptr len : Nat} (w : WinWritable s ptr len v) {i : Nat}
    (hi : i < len) (b : Byte) : ∃ y, s.store (ptr + i) b = .ok { s with bytes := y } ∧
      WinWritable { s with bytes := y } ptr len v ∧
      ∀ j, j < len → Win.load { s with bytes := y } (ptr + j) = if j = i then .ok b else s.load (ptr + j) := by
  obtain ⟨y, e, w', h⟩ := w.storeN [b] (i := i) (by simp only [List.length_singleton]; omega)
  refine ⟨y, ?_, w', fun j hj => ?_⟩
  · simp only [WinDocMap.storeN, bind, Except.bind] at e
    cases hs : s.store (ptr + i) b with
    | error x => rw [hs] at e; cases e
    | ok s' => rw [hs] at e; exact e
  · rw [h j hj]
    by_cases hji : j = i
    · subst hji; rw [if_pos ⟨Nat.le_refl _, by simp⟩, if_pos rfl, Nat.sub_self]; rfl
    · rw [if_neg hji, if_neg (by simp only [List.length_singleton]; omega)]

namespace WinGuard

theorem loadN_eq (g : WinGuard) : ∀ (n a : Nat), g.loadN a n = WinDocMap.loadN g.win a n
  | 0, _ => rfl
  | n + 1, a => by simp only [loadN, WinDocMap.loadN, load, loadN_eq g n (a + 1)]

theorem store_free {g : WinGuard} {a : Nat} {b : Byte} {s : Vmap.Win} (free : g.barred (a / g.win.page) = false)
    (h : g.win.store a b = .ok s) : g.store a b = .ok ⟨s, g.barred⟩ := by
  rw [store, free]
  simp only [Bool.false_eq_true, if_false, h, bind, Except.bind, pure, Except.pure]

theorem store_barred {g : WinGuard} {a : Nat} {b : Byte} (no : g.barred (a / g.win.page) = true) :
    g.store a b = .error .memory := by
  rw [store, if_pos no]

theorem storeN_free : ∀ (bs : List Byte) {g : WinGuard} {a : Nat} {s : Vmap.Win},
    (∀ i, i < bs.length → g.barred ((a + i) / g.win.page) = false) → WinDocMap.storeN g.win a bs = .ok s →
      g.storeN a bs = .ok ⟨s, g.barred⟩
  | [], g, a, s, _, h => by injection h with h; subst h; rfl
  | b :: bs, g, a, s, free, h => by
    simp only [WinDocMap.storeN, bind, Except.bind] at h
    cases hs : g.win.store a b with
    | error x => rw [hs] at h; cases h
    | ok s1 =>
      rw [hs] at h
      obtain ⟨y, rfl⟩ := win_store_bare hs
      have f0 := free 0 (by simp)
      rw [Nat.add_zero] at f0
      simp only [storeN, bind, Except.bind, store_free f0 hs]
      refine storeN_free bs (g := ⟨{ g.win with bytes := y }, g.barred⟩) (fun i hi => ?_) h
      have := free (i + 1) (by simpa using hi)
      rwa [show a + (i + 1) = a + 1 + i by omega] at this

theorem storeN_append : ∀ (as bs : List Byte) {g g' : WinGuard} {a : Nat}, g.storeN a as = .ok g' →
    g.storeN a (as ++ bs) = g'.storeN (a + as.length) bs
  | [], bs, g, g', a, h => by injection h with h; subst h; rfl
  | x :: as, bs, g, g', a, h => by
    simp only [storeN, bind, Except.bind, List.cons_append] at h ⊢
    cases hs : g.store a x with
    | error e => rw [hs] at h; cases h
    | ok g1 =>
      rw [hs] at h
      simp only
      rw [storeN_append as bs h, List.length_cons]
      congr 1; omega

/-- What `protect` does. -/
theorem protect_cases (g : WinGuard) (pg len : Nat) (prot : Protect) :
    (∃ s' e, g.protect pg len prot = (⟨s', g.barred⟩, .error e) ∧ g.win.protect pg len prot = (s', .error e) ∧
      WinStill g.win s') ∨
    ∃ s' f, g.protect pg len prot = (⟨s', f⟩, .ok ()) ∧ g.win.protect pg len prot = (s', .ok ()) ∧ WinStill g.win s' ∧
      (∀ a, PageTouch g.win.page pg len a → f (a / g.win.page) = bars prot) ∧
      (∀ a, ¬ PageTouch g.win.page pg len a → f (a / g.win.page) = g.barred (a / g.win.page)) := by
  have still := WinStill.protect g.win pg len prot
  cases hp : g.win.protect pg len prot with
  | mk s' r =>
    rw [hp] at still
    cases r with
    | error e => exact .inl ⟨s', e, by simp only [protect, hp], rfl, still⟩
    | ok u =>
      refine .inr ⟨s', _, by simp only [protect, hp]; rfl, rfl, still, fun a h => ?_, fun a h => ?_⟩
      · rw [if_pos]
        rw [List.contains_iff_mem, Win.mem_pagesOf]
        exact h
      · rw [if_neg]
        rw [List.contains_iff_mem, Win.mem_pagesOf]
        exact h

theorem still_look {s s' : Vmap.Win} (h : WinStill s s') (a : Nat) : s'.look a = s.look a := by
  simp only [Win.look, h.quiet.views]

theorem still_load {s s' : Vmap.Win} (h : WinStill s s') (a : Nat) : s'.load a = s.load a := by
  simp only [Win.load, still_look h, h.bytes, Win.lost, h.files, h.quiet.keeps.page]
  rfl

end WinGuard

/-- Which pages may be written is what the calls of `os::protect` say. -/
theorem WinGuard.run_inv {v : WinView} {ptr len : Nat} : ∀ (acts : List WinGuard.Act) {g g' : WinGuard}
    {h h' : List (Nat × Nat × Protect × Bool)}, WinWritable g.win ptr len v → (∀ x, x ∈ acts → ActIn ptr len x) →
    (∀ a, g.barred (a / g.win.page) = false ↔ MayWrite g.win.page a h) → g.run h acts = .ok (g', h') →
    WinWritable g'.win ptr len v ∧ g'.win.page = g.win.page ∧
      ∀ a, g'.barred (a / g'.win.page) = false ↔ MayWrite g'.win.page a h'
  | [], g, g', h, h', w, _, inv, e => by
    injection e with e; injection e with e1 e2; subst e1 e2
    exact ⟨w, rfl, inv⟩
  | .protect pg n prot :: as, g, g', h, h', w, ins, inv, e => by
    simp only [WinGuard.run] at e
    have rest : ∀ x, x ∈ as → ActIn ptr len x := fun x hx => ins x (List.mem_cons_of_mem _ hx)
    have keep : ∀ {s' : Vmap.Win}, WinStill g.win s' → WinWritable s' ptr len v := fun st =>
      ⟨fun i hi => by rw [WinGuard.still_look st]; exact w.look i hi, by rw [st.bytes]; exact w.can,
        fun i hi => by rw [WinGuard.still_load st]; exact w.loads i hi⟩
    rcases g.protect_cases pg n prot with ⟨s', er, h1, h2, st⟩ | ⟨s', f, h1, h2, st, on, off⟩
    · rw [h1] at e
      have hp := st.quiet.keeps.page
      obtain ⟨r1, r2, r3⟩ := run_inv as (g := ⟨s', g.barred⟩) (keep st) rest (by
        intro a
        show g.barred (a / s'.page) = false ↔ MayWrite s'.page a _
        rw [hp, inv a]
        constructor
        · exact fun x => .other (.inl rfl) x
        · intro x; cases x with
          | other no was => exact was) e
      exact ⟨r1, r2.trans hp, r3⟩
    · rw [h1] at e
      have hp := st.quiet.keeps.page
      obtain ⟨r1, r2, r3⟩ := run_inv as (g := ⟨s', f⟩) (keep st) rest (by
        intro a
        show f (a / s'.page) = false ↔ MayWrite s'.page a _
        rw [hp]
        by_cases ha : PageTouch g.win.page pg n a
        · rw [on a ha]
          constructor
          · intro x
            refine .grants ha ?_
            cases prot with
            | readWrite => exact .inl rfl
            | readCopy => exact .inr rfl
            | readOnly => cases x
            | readExec => cases x
          · intro x
            cases x with
            | grants _ rw_ => rcases rw_ with rfl | rfl <;> rfl
            | other no was => exact absurd ha (no.resolve_left (by simp))
        · rw [off a ha, inv a]
          constructor
          · exact fun x => .other (.inr ha) x
          · intro x; cases x with
            | grants on' _ => exact absurd on' ha
            | other no was => exact was) e
      exact ⟨r1, r2.trans hp, r3⟩
  | .load a :: as, g, g', h, h', w, ins, inv, e => by
    simp only [WinGuard.run, bind, Except.bind] at e
    have rest : ∀ x, x ∈ as → ActIn ptr len x := fun x hx => ins x (List.mem_cons_of_mem _ hx)
    cases hl : g.load a with
    | error x => rw [hl] at e; cases e
    | ok b => rw [hl] at e; exact run_inv as w rest inv e
  | .store a b :: as, g, g', h, h', w, ins, inv, e => by
    simp only [WinGuard.run, bind, Except.bind] at e
    have rest : ∀ x, x ∈ as → ActIn ptr len x := fun x hx => ins x (List.mem_cons_of_mem _ hx)
    have ha : ptr ≤ a ∧ a < ptr + len := ins _ List.mem_cons_self
    cases hb : g.barred (a / g.win.page) with
    | true => rw [WinGuard.store_barred hb] at e; cases e
    | false =>
      obtain ⟨y, e1, w1, -⟩ := w.store (i := a - ptr) (by omega) b
      rw [show ptr + (a - ptr) = a by omega] at e1
      rw [WinGuard.store_free hb e1] at e
      exact run_inv as (g := ⟨{ g.win with bytes := y }, g.barred⟩) w1 rest inv e

/-- A new map of memory: none of its pages is of a view that was there before. -/
theorem win_alloc_new {t : Target} {k : WinFs} (g : WinGood t k) {o : Options} (rw_ : o.protect = .readWrite) {d : Nat}
    (off : o.offset % k.win.page = d) (fits : WinAllocFits t k.win.gran d o.len) :
    ∃ s' r, k.win.alloc t o = .ok (s', r) ∧ WinGood t { k with win := s' } ∧ s'.page = k.win.page ∧
      (∀ e, r = .error e → (∃ n, e.rawOsError = some n) ∧ s'.views = k.win.views) ∧
      (∀ m, r = .ok m → AllocLen k.win.gran d o.len m.len ∧ m.ptr % k.win.page = d ∧ (∃ v, s'.views = v :: k.win.views) ∧
        (∀ i, i < m.len → ∀ v, v ∈ k.win.views → v.onPage k.win.page ((m.ptr + i) / k.win.page) = false) ∧
        (0 < m.len → ∃ v, WinBears s' v.sec (List.replicate (d + m.len) 0) ∧ WinSeen s' m v d true)) := by
  obtain ⟨s', r, e1, g', kp, er, ok⟩ := winAllocedAt g rw_ off fits
  obtain ⟨s2, r2, h1, rest, wf', hok, herr⟩ := C81_alloc_partial t g.wf.win (o := o) (by rw [off]; exact fits)
  rw [WinDocMap.on_ok h1] at e1
  injection e1 with e1; injection e1 with e1 e2
  have e3 : s2 = s' := congrArg WinFs.win e1
  subst e2 e3
  refine ⟨s2, r2, h1, g', kp.page, fun e he => ⟨er e he, (herr e he).1⟩, fun m hm => ?_⟩
  obtain ⟨-, hmod, ⟨v, wm⟩, -⟩ := hok m hm
  refine ⟨(ok m hm).1, hmod.trans off, ⟨v, wm.views⟩, fun i hi v0 h0 => ?_, (ok m hm).2⟩
  obtain ⟨i1, i2, -, -⟩ := wm.inside
  obtain ⟨r1, -, r3⟩ := wm.room
  obtain ⟨a1, -, -⟩ := wm.start
  have hp := g.wf.win.page_pos
  have d1 : k.win.page ∣ v.base := Nat.dvd_trans g.wf.win.page_dvd a1
  have q1 := Nat.div_mul_le_self (m.ptr + i) k.win.page
  have q2 := Nat.lt_div_mul_add hp (a := m.ptr + i)
  have hle : v.base ≤ (m.ptr + i) / k.win.page * k.win.page := by
    obtain ⟨c, hc⟩ := d1
    rw [hc, Nat.mul_comm k.win.page c]
    exact Nat.mul_le_mul_right _ ((Nat.le_div_iff_mul_le hp).mpr (by rw [Nat.mul_comm, ← hc]; omega))
  have p1 := k.win.roundPage_le hp v.len
  have p2 := k.win.roundPage_le hp v0.len
  refine decide_eq_false ?_
  rintro ⟨b1, b2⟩
  rcases r3 v0 h0 with h | h
  · omega
  · omega

/-- `alloc_offset`: stopped by a system call, whatever is written; or not at all, and by one more byte. -/
theorem win_allocOffset {t : Target} {k : WinFs} (g : WinGood t k) (page : 5 < k.win.page) (fits : k.win.gran + 1 < t.lim) :
    (∃ g' e n, (∀ text, WinGuard.allocOffset t ⟨k.win, fun _ => false⟩ text = .ok (g', .error e)) ∧
      e.rawOsError = some n) ∨
    ∃ g', WinGuard.allocOffset t ⟨k.win, fun _ => false⟩ MapTests.hello = .ok (g', .ok ()) ∧
      ∀ b, WinGuard.allocOffset t ⟨k.win, fun _ => false⟩ (MapTests.hello ++ [b]) = .error .memory := by
  obtain ⟨a, b, -, hb, -, hbits⟩ := g.wf.win.sizes
  have hpg : k.win.page ≤ k.win.gran := Nat.le_of_dvd g.wf.win.gran_pos g.wf.win.page_dvd
  have hsize : k.win.sizeAlloc.size t 1 = .ok k.win.gran := by
    have := C03_size t b 1 (by omega) (by rw [Nat.one_mul, ← hb]; omega)
    rw [Nat.one_mul, ← hb] at this
    exact this
  have hoff : (k.win.gran - 5) % k.win.page = k.win.page - 5 := by
    obtain ⟨c, hc⟩ := g.wf.win.page_dvd
    cases c with
    | zero => rw [hc] at hpg; omega
    | succ c =>
      rw [hc, Nat.mul_add, Nat.mul_one, Nat.add_sub_assoc (by omega), Nat.mul_add_mod, Nat.mod_eq_of_lt (by omega)]
  have hsub : subU t k.win.gran 5 = .ok (k.win.gran - 5) := subU_ok (by omega)
  obtain ⟨s1, r1, e1, g1, hp1, er1, ok1⟩ := win_alloc_new g
    (o := (Options.newMut.setOffset (k.win.gran - 5)).setLen (.exact 6)) rfl (d := k.win.page - 5)
    hoff (by show k.win.page - 5 + 6 < t.lim; omega)
  simp only [WinGuard.allocOffset, hsize, hsub, bind, Except.bind, WinGuard.call, e1, pure, Except.pure,
    Bool.false_and]
  cases r1 with
  | error e =>
    obtain ⟨⟨n, hn⟩, -⟩ := er1 e rfl
    exact .inl ⟨_, e, n, fun _ => rfl, hn⟩
  | ok m =>
    obtain ⟨hl, hmod, -, -, hv⟩ := ok1 m rfl
    have hl : m.len = 6 := hl
    obtain ⟨v, tx, s⟩ := hv (by omega)
    rw [hl] at tx
    have hend := s.end_lt g1
    have hpp := g.wf.win.page_pos
    simp only [ptrAdd_ok (t := t) (a := m.ptr) (b := 5) (by omega)]
    rcases WinGuard.protect_cases ⟨s1, fun _ => false⟩ (m.ptr + 5) 1 .readOnly with
      ⟨s2, er, h1, h2, st⟩ | ⟨s2, f, h1, h2, st, on, off⟩
    · rw [h1]
      obtain ⟨n, hn⟩ := win_wrap_raw h2
      exact .inl ⟨_, er, n, fun _ => rfl, hn⟩
    · rw [h1]
      simp only at on off
      rw [hp1] at on off
      have hp2 : s2.page = k.win.page := st.quiet.keeps.page.trans hp1
      have w := s.writable (k := { k with win := s1 }) g1 tx (by rw [List.length_replicate, hl]; exact Nat.le_refl _) (.inl (s.write rfl))
      have w2 : WinWritable s2 m.ptr m.len v :=
        ⟨fun i hi => by rw [WinGuard.still_look st]; exact w.look i hi, by rw [st.bytes]; exact w.can,
          fun i hi => by rw [WinGuard.still_load st]; exact w.loads i hi⟩
      have zero : ∀ i, i < 6 → s2.load (m.ptr + i) = .ok 0 := fun i hi => by
        rw [WinGuard.still_load st, s.load (k := { k with win := s1 }) g1 tx (i := i) (by omega)
          (by rw [List.length_replicate]; omega)]
        simp only [List.getD_eq_getElem?_getD, List.getElem?_replicate]
        rw [if_pos (by omega)]; rfl
      have ploc : (m.ptr + 5) % k.win.page = 0 := by
        rw [Nat.add_mod, hmod, Nat.mod_eq_of_lt (a := 5) page, show k.win.page - 5 + 5 = k.win.page by omega, Nat.mod_self]
      have below : ∀ i, i < 5 → f ((m.ptr + i) / k.win.page) = false := fun i hi => by
        rw [off]
        rintro ⟨x, x1, x2, x3⟩
        obtain rfl : x = m.ptr + 5 := by omega
        have a1 := Nat.div_add_mod (m.ptr + 5) k.win.page
        have a2 := Nat.div_add_mod (m.ptr + i) k.win.page
        have a3 := Nat.mod_lt (m.ptr + i) hpp
        rw [x3, ploc] at a1
        omega
      have at5 : f ((m.ptr + 5) / k.win.page) = true := by
        rw [on _ ⟨m.ptr + 5, Nat.le_refl _, by omega, rfl⟩]; rfl
      obtain ⟨y, e3, w3, h3⟩ := w2.storeN MapTests.hello (i := 0) (by rw [hl]; decide)
      have h5 : MapTests.hello.length = 5 := rfl
      rw [Nat.add_zero] at e3
      have e4 := WinGuard.storeN_free MapTests.hello (g := ⟨s2, f⟩) (a := m.ptr)
        (fun i hi => by show f ((m.ptr + i) / s2.page) = false; rw [hp2]; exact below i hi) e3
      have sh1 : WinGuard.shows ⟨s2, f⟩ m (List.replicate 6 0) = .ok () := by
        have := win_loadN (s := s2) (List.replicate 6 0) m.ptr (fun i hi => by
          rw [List.length_replicate] at hi
          rw [zero i hi]
          simp only [List.getD_eq_getElem?_getD, List.getElem?_replicate]
          rw [if_pos hi]; rfl)
        rw [List.length_replicate] at this
        simp only [WinGuard.shows, WinGuard.loadN_eq, hl, this, bind, Except.bind, Doc.assert, decide_true, if_true]
      have sh2 : WinGuard.shows ⟨{ s2 with bytes := y }, f⟩ m (MapTests.hello ++ [0]) = .ok () := by
        have := win_loadN (s := { s2 with bytes := y }) (MapTests.hello ++ [0]) m.ptr (fun i hi => by
          have hi : i < 6 := hi
          rw [h3 i (by omega)]
          by_cases hc : i < 5
          · rw [if_pos ⟨Nat.zero_le _, by omega⟩, Nat.sub_zero]
            have : ∀ i, i < 5 → MapTests.hello.getD i 0 = (MapTests.hello ++ [0]).getD i 0 := by decide
            rw [this i hc]
          · obtain rfl : i = 5 := by omega
            rw [if_neg (by omega), zero 5 (by omega)]; rfl)
        have hlen : (MapTests.hello ++ [0]).length = 6 := rfl
        rw [hlen] at this
        simp only [WinGuard.shows, WinGuard.loadN_eq, hl, this, bind, Except.bind, Doc.assert, decide_true, if_true]
      have has : Doc.assert (decide (m.len = 6)) = .ok () := by rw [hl]; rfl
      refine .inr ⟨⟨{ s2 with bytes := y }, f⟩, ?_, fun b => ?_⟩
      · simp only [has, sh1, WinGuard.put]
        rw [if_pos (by rw [hl]; decide), e4]
        simp only [sh2]
      · simp only [has, sh1, WinGuard.put]
        rw [if_pos (by rw [hl, List.length_append, h5]; exact Nat.le_refl _), WinGuard.storeN_append _ _ e4, h5]
        have : WinGuard.store ⟨{ s2 with bytes := y }, f⟩ (m.ptr + 5) b = .error .memory :=
          WinGuard.store_barred (by show f ((m.ptr + 5) / s2.page) = true; rw [hp2]; exact at5)
        simp only [WinGuard.storeN, this, bind, Except.bind]

end Vmap
