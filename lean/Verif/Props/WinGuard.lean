import Verif.Proofs.WinGuard
import Verif.Props.WinSpan
/-
Property theorems C167: `os::protect` on Windows.
-/
namespace Vmap
open Spec

section
variable {t : Target}

/-- C167: a program that has `len` bytes of memory that can be read and written, and calls `os::protect` on
whatever ranges it likes, in whatever order, in between reading and writing that memory.  Wherever
it gets to: every byte of the memory can be read; a byte can be written exactly if the latest granted
call about its page asked for `ReadWrite` (or `ReadCopy`), or there was none; otherwise writing it is a
memory fault.  What is written is what is read then, and no other byte changes. -/
theorem C167_last_wins {s : Vmap.Win} {ptr len : Nat} {v : WinView} (w : WinWritable s ptr len v)
    (acts : List WinGuard.Act) (ins : ∀ x, x ∈ acts → ActIn ptr len x) {g : WinGuard}
    {h : List (Nat × Nat × Protect × Bool)} (ran : WinGuard.run ⟨s, fun _ => false⟩ [] acts = .ok (g, h))
    {i : Nat} (hi : i < len) :
    (∃ x, g.load (ptr + i) = .ok x) ∧
      (¬ MayWrite s.page (ptr + i) h → ∀ b, g.store (ptr + i) b = .error .memory) ∧
      (MayWrite s.page (ptr + i) h → ∀ b, ∃ g', g.store (ptr + i) b = .ok g' ∧
        ∀ j, j < len → g'.load (ptr + j) = if j = i then .ok b else g.load (ptr + j)) := by
  obtain ⟨w', hp, inv⟩ := WinGuard.run_inv acts (g := ⟨s, fun _ => false⟩) w ins
    (fun a => ⟨fun _ => .never, fun _ => rfl⟩) ran
  have hp : g.win.page = s.page := hp
  refine ⟨w'.loads i hi, fun no b => ?_, fun may b => ?_⟩
  · refine WinGuard.store_barred ?_
    cases hb : g.barred ((ptr + i) / g.win.page) with
    | true => rfl
    | false => exact absurd (by have := (inv _).mp hb; rwa [hp] at this) no
  · obtain ⟨y, e1, -, h1⟩ := w'.store hi b
    exact ⟨_, WinGuard.store_free ((inv _).mpr (by rw [hp]; exact may)) e1, h1⟩

/-- C167: such a program is never stopped by reading; it is stopped only by writing to a page that may not
be written, by a memory fault. -/
theorem C167_only_faults {s : Vmap.Win} {ptr len : Nat} {v : WinView} (w : WinWritable s ptr len v)
    (acts : List WinGuard.Act) (act : WinGuard.Act) (ins : ∀ x, x ∈ acts → ActIn ptr len x) (here : ActIn ptr len act)
    {g : WinGuard} {h : List (Nat × Nat × Protect × Bool)}
    (ran : WinGuard.run ⟨s, fun _ => false⟩ [] acts = .ok (g, h)) (f : Fault) :
    g.run h [act] = .error f ↔ f = .memory ∧ ∃ a b, act = .store a b ∧ ¬ MayWrite s.page a h := by
  cases act with
  | protect pg n prot =>
    simp only [WinGuard.run, pure, Except.pure]
    constructor
    · intro x; cases x
    · rintro ⟨-, a, b, x, -⟩; cases x
  | load a =>
    obtain ⟨h1, h2⟩ : ptr ≤ a ∧ a < ptr + len := here
    obtain ⟨⟨x, hx⟩, -⟩ := C167_last_wins w acts ins ran (i := a - ptr) (by omega)
    rw [show ptr + (a - ptr) = a by omega] at hx
    simp only [WinGuard.run, bind, Except.bind, hx, pure, Except.pure]
    constructor
    · intro x; cases x
    · rintro ⟨-, a, b, x, -⟩; cases x
  | store a b =>
    obtain ⟨h1, h2⟩ : ptr ≤ a ∧ a < ptr + len := here
    obtain ⟨-, no, may⟩ := C167_last_wins w acts ins ran (i := a - ptr) (by omega)
    rw [show ptr + (a - ptr) = a by omega] at no may
    simp only [WinGuard.run, bind, Except.bind]
    by_cases hm : MayWrite s.page a h
    · obtain ⟨g', e, -⟩ := may hm b
      rw [e]
      constructor
      · intro x; cases x
      · rintro ⟨-, a', b', x, hn⟩; injection x with x; subst x; exact absurd hm hn
    · rw [no hm b]
      constructor
      · intro x; injection x with x; exact ⟨x.symm, a, b, rfl, hm⟩
      · rintro ⟨rfl, -⟩; rfl

/-- C167: `into_map_mut` (and `into_map`, which asks for the same) makes a map of a view with write access
writable again, whatever pages of it have been protected before: if it succeeds, each byte of the map
can be written. -/
theorem C167_into_map_mut {k : WinFs} (good : WinGood t k) {m : MapMut} {v : WinView} {off : Nat}
    (seen : WinSeen k.win m v off true) {text : List Byte} (tx : WinBears k.win v.sec text)
    (hl : off + m.len ≤ text.length) (barred : Nat → Bool) :
    (∃ g' r, WinGuard.intoMapMut t ⟨k.win, barred⟩ ⟨m⟩ = .ok (g', r) ∧
      ((∃ e, r = .error (e, ⟨m⟩) ∧ g'.barred = barred) ∨ (r = .ok m ∧ ∀ i, i < m.len → ∀ b, ∃ g'',
        g'.store (m.ptr + i) b = .ok g'' ∧ g''.load (m.ptr + i) = .ok b))) ∧
    (∃ g' r, WinGuard.intoMap t ⟨k.win, barred⟩ m = .ok (g', r) ∧
      ((∃ e, r = .error (e, m) ∧ g'.barred = barred) ∨ (r = .ok ⟨m⟩ ∧ ∀ i, i < m.len → ∀ b, ∃ g'',
        g'.store (m.ptr + i) b = .ok g'' ∧ g''.load (m.ptr + i) = .ok b))) := by
  obtain ⟨addr, sz, hb, pages⟩ := seen.whole good
  have w := seen.writable good tx hl (.inl (seen.write rfl))
  have key : ∀ (s' : Vmap.Win) (f : Nat → Bool), WinStill k.win s' →
      (∀ a, PageTouch k.win.page addr sz a → f (a / k.win.page) = WinGuard.bars .readWrite) → ∀ i, i < m.len → ∀ b,
      ∃ g'', WinGuard.store ⟨s', f⟩ (m.ptr + i) b = .ok g'' ∧ g''.load (m.ptr + i) = .ok b := by
    intro s' f st on i hi b
    have w' : WinWritable s' m.ptr m.len v :=
      ⟨fun i hi => by rw [WinGuard.still_look st]; exact w.look i hi, by rw [st.bytes]; exact w.can,
        fun i hi => by rw [WinGuard.still_load st]; exact w.loads i hi⟩
    obtain ⟨y, e1, -, h1⟩ := w'.store hi b
    have hf : f ((m.ptr + i) / s'.page) = false := by
      rw [st.quiet.keeps.page]
      have := pages.lower
      have := pages.upper
      exact on (m.ptr + i) ⟨m.ptr + i, by omega, by omega, rfl⟩
    refine ⟨_, WinGuard.store_free (g := ⟨s', f⟩) hf e1, ?_⟩
    have := h1 i hi
    rw [if_pos rfl] at this
    exact this
  constructor
  · simp only [WinGuard.intoMapMut, hb, bind, Except.bind]
    rcases WinGuard.protect_cases ⟨k.win, barred⟩ addr sz .readWrite with ⟨s', er, h1, h2, st⟩ | ⟨s', f, h1, h2, st, on, -⟩
    · rw [h1]; exact ⟨_, _, rfl, .inl ⟨er, rfl, rfl⟩⟩
    · rw [h1]; exact ⟨_, _, rfl, .inr ⟨rfl, key s' f st on⟩⟩
  · simp only [WinGuard.intoMap, hb, bind, Except.bind]
    rcases WinGuard.protect_cases ⟨k.win, barred⟩ addr sz .readWrite with ⟨s', er, h1, h2, st⟩ | ⟨s', f, h1, h2, st, on, -⟩
    · rw [h1]; exact ⟨_, _, rfl, .inl ⟨er, rfl, rfl⟩⟩
    · rw [h1]; exact ⟨_, _, rfl, .inr ⟨rfl, key s' f st on⟩⟩

/-- C167: new memory can be written, whatever pages were protected before: none of its pages is
protected.  What is protected then are only pages that are mapped. -/
theorem C167_new_memory {k : WinFs} (good : WinGood t k) {o : Options} (rw_ : o.protect = .readWrite)
    (fits : WinAllocFits t k.win.gran (o.offset % k.win.page) o.len) (barred : Nat → Bool) :
    ∃ g' r, WinGuard.call ⟨k.win, barred⟩ (fun s => s.alloc t o) = .ok (g', r) ∧ Guarded g' ∧
      ∀ m, r = .ok m → ∀ i, i < m.len → ∀ b, ∃ g'', g'.store (m.ptr + i) b = .ok g'' ∧ g''.load (m.ptr + i) = .ok b := by
  obtain ⟨s', r, e1, g', hp, er, ok⟩ := win_alloc_new good rw_ rfl fits
  simp only [WinGuard.call, e1, bind, Except.bind]
  refine ⟨_, r, rfl, fun q hq => ?_, fun m hm i hi b => ?_⟩
  · simp only [Bool.and_eq_true, List.any_eq_true] at hq
    obtain ⟨-, v, -, on, mem⟩ := hq
    rw [List.contains_iff_mem] at mem
    refine ⟨v, mem, ?_⟩
    show v.base ≤ q * s'.page ∧ q * s'.page < _
    rw [hp]
    exact of_decide_eq_true on
  · obtain ⟨-, -, -, new, seen⟩ := ok m hm
    obtain ⟨v, tx, s⟩ := seen (by omega)
    have w := s.writable (k := { k with win := s' }) g' tx (by rw [List.length_replicate]; omega) (.inl (s.write rfl))
    obtain ⟨y, e2, -, h2⟩ := WinWritable.store w hi b
    have h2 := h2 i hi
    rw [if_pos rfl] at h2
    refine ⟨_, WinGuard.store_free (g := ⟨s', _⟩) ?_ e2, h2⟩
    show (barred ((m.ptr + i) / s'.page) && _) = false
    rw [hp, Bool.and_eq_false_iff]
    right
    rw [List.any_eq_false]
    intro v0 h0 hc
    rw [new i hi v0 h0, Bool.false_and] at hc
    cases hc

/-- C167: the crate's test `alloc_offset` on Windows, from a process in which nothing is protected: it
ends without a failed assertion or fault, with `Ok` or an error of a system call. -/
theorem C167_alloc_offset {k : WinFs} (good : WinGood t k) (page : 5 < k.win.page) (fits : k.win.gran + 1 < t.lim) :
    ∃ g' r, WinGuard.allocOffset t ⟨k.win, fun _ => false⟩ MapTests.hello = .ok (g', r) ∧
      ∀ e, r = .error e → ∃ n, e.rawOsError = some n := by
  rcases win_allocOffset good page fits with ⟨g', e, n, h1, h2⟩ | ⟨g', h1, -⟩
  · exact ⟨g', .error e, h1 _, fun e' he => by injection he with he; subst he; exact ⟨n, h2⟩⟩
  · exact ⟨g', .ok (), h1, fun e' he => by cases he⟩

/-- C167: the remark in `alloc_offset` is true on Windows: with one more byte, whatever it is, the test ends
in a memory fault (or with an error of a system call before). -/
theorem C167_alloc_offset_fault {k : WinFs} (good : WinGood t k) (page : 5 < k.win.page) (fits : k.win.gran + 1 < t.lim)
    (b : Byte) :
    WinGuard.allocOffset t ⟨k.win, fun _ => false⟩ (MapTests.hello ++ [b]) = .error .memory ∨
      ∃ g' e n, WinGuard.allocOffset t ⟨k.win, fun _ => false⟩ (MapTests.hello ++ [b]) = .ok (g', .error e) ∧
        e.rawOsError = some n := by
  rcases win_allocOffset good page fits with ⟨g', e, n, h1, h2⟩ | ⟨g', -, h1⟩
  · exact .inr ⟨g', e, n, h1 _, h2⟩
  · exact .inl (h1 b)

end

/-- Two pages of memory on the example system. -/
theorem winGuard_memory : ∃ w' m, (winDir [] []).win.alloc ⟨.w64, true⟩ (Options.newMut.setLen (.exact 5000)) = .ok (w', .ok m) ∧
    m.len = 5000 ∧ m.ptr = 68157440 ∧ w'.page = 4096 ∧ (∃ v, WinWritable w' m.ptr m.len v) ∧
    (w'.protect (m.ptr + 4096) 1 .readOnly).2.toBool = true := by
  obtain ⟨w', r, e, -, ok⟩ := C166_alloc (t := ⟨.w64, true⟩) (winDir_good [] []) (o := Options.newMut.setLen (.exact 5000)) rfl
    (by show 0 % 4096 + 5000 < _; decide)
  have hr : ∃ m, r = .ok m ∧ m.len = 5000 ∧ m.ptr = 68157440 ∧ w'.page = 4096 ∧
      (w'.protect (m.ptr + 4096) 1 .readOnly).2.toBool = true := by
    have : (match (winDir [] []).win.alloc ⟨.w64, true⟩ (Options.newMut.setLen (.exact 5000)) with
        | .ok (w'', .ok m) => decide (m.len = 5000) && decide (m.ptr = 68157440) && decide (w''.page = 4096) &&
          (w''.protect (m.ptr + 4096) 1 .readOnly).2.toBool
        | _ => false) = true := by decide +kernel
    rw [e] at this
    cases r with
    | error x => cases this
    | ok m =>
      simp only [Bool.and_eq_true, decide_eq_true_eq] at this
      exact ⟨m, rfl, this.1.1.1, this.1.1.2, this.1.2, this.2⟩
  obtain ⟨m, rfl, h1, h2, h3, h4⟩ := hr
  obtain ⟨-, v, w⟩ := ok m rfl (by omega)
  exact ⟨w', m, e, h1, h2, h3, ⟨v, w⟩, h4⟩

/-- The second page is made read-only: the first byte of it may not be written, the one before it may. -/
example : ∃ s ptr v g h, WinWritable s ptr 5000 v ∧
    WinGuard.run ⟨s, fun _ => false⟩ [] [.protect (ptr + 4096) 1 .readOnly, .load ptr] = .ok (g, h) ∧
    (∀ b, g.store (ptr + 4096) b = .error .memory) ∧ (∃ g', g.store (ptr + 4095) 7 = .ok g') := by
  obtain ⟨s, m, -, hl, hp, hpg, ⟨v, w⟩, ok⟩ := winGuard_memory
  rw [hl] at w
  have ins : ∀ x, x ∈ [WinGuard.Act.protect (m.ptr + 4096) 1 .readOnly, .load m.ptr] → ActIn m.ptr 5000 x := by
    intro x hx
    simp only [List.mem_cons, List.not_mem_nil, or_false] at hx
    rcases hx with rfl | rfl
    · trivial
    · exact ⟨Nat.le_refl _, by omega⟩
  have ran : ∃ g, WinGuard.run ⟨s, fun _ => false⟩ [] [.protect (m.ptr + 4096) 1 .readOnly, .load m.ptr] =
      .ok (g, [(m.ptr + 4096, 1, .readOnly, true)]) := by
    rcases WinGuard.protect_cases ⟨s, fun _ => false⟩ (m.ptr + 4096) 1 .readOnly with
      ⟨s', er, h1, h2, st⟩ | ⟨s', f, h1, h2, st, -⟩
    · simp only [h2] at ok; cases ok
    · obtain ⟨x, hx⟩ := w.loads 0 (by omega)
      refine ⟨⟨s', f⟩, ?_⟩
      simp only [WinGuard.run, h1, WinGuard.load, WinGuard.still_load st, bind, Except.bind]
      rw [Nat.add_zero] at hx
      rw [hx]; rfl
  obtain ⟨g, ran⟩ := ran
  refine ⟨s, m.ptr, v, g, _, w, ran, ?_, ?_⟩
  · refine (C167_last_wins w _ ins ran (i := 4096) (by omega)).2.1 ?_
    intro h
    cases h with
    | grants on rw_ => rcases rw_ with h | h <;> cases h
    | other no was =>
      rcases no with h | h
      · cases h
      · exact h ⟨m.ptr + 4096, Nat.le_refl _, by omega, rfl⟩
  · obtain ⟨g', h, -⟩ := (C167_last_wins w _ ins ran (i := 4095) (by omega)).2.2
      (.other (.inr (by rintro ⟨x, x1, x2, x3⟩; rw [hpg] at x3; omega)) .never) 7
    exact ⟨g', h⟩

example : (match WinGuard.allocOffset ⟨.w64, true⟩ ⟨(winDir [] []).win, fun _ => false⟩ MapTests.hello with
    | .ok (_, .ok ()) => true
    | _ => false) = true := by decide +kernel

example : (match WinGuard.allocOffset ⟨.w64, true⟩ ⟨(winDir [] []).win, fun _ => false⟩ (MapTests.hello ++ [33]) with
    | .error .memory => true
    | _ => false) = true := by decide +kernel

-- the example system meets the hypotheses
example : WinGood ⟨.w64, true⟩ (winDir [] []) ∧
    WinAllocFits ⟨.w64, true⟩ (winDir [] []).win.gran 0 (.exact 5000) ∧ 5 < (winDir [] []).win.page :=
  ⟨winDir_good _ _, by show 0 + 5000 < _; decide, by decide⟩

-- a map that can be written, of memory that shows zeros
example : ∃ (k : WinFs) (m : MapMut) (v : WinView), WinGood ⟨.w64, true⟩ k ∧ WinSeen k.win m v 0 true ∧
    WinBears k.win v.sec (List.replicate (0 + m.len) 0) ∧ m.len = 5000 := by
  obtain ⟨s', r, e, g', -, -, ok⟩ := win_alloc_new (t := ⟨.w64, true⟩) (winDir_good [] [])
    (o := Options.newMut.setLen (.exact 5000)) rfl rfl (by show 0 % 4096 + 5000 < _; decide)
  obtain ⟨w', m, h, hl, -⟩ := winGuard_memory
  rw [e] at h
  injection h with h; injection h with h1 h2
  obtain ⟨-, -, -, -, seen⟩ := ok m h2
  obtain ⟨v, tx, s⟩ := seen (by omega)
  exact ⟨_, m, v, g', s, tx, hl⟩

end Vmap
