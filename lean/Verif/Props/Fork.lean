import Verif.Proofs.Fork
import Verif.Props.Coherent
/-
Property theorems C115 and C116: allocated memory and copy-on-write maps after `fork`.
-/
namespace Vmap
open Kernel Spec

section
variable {tab : SysTable} {t : Target} {k0 : Kernel}

/-- Both orders of looking at parent and child (helper). -/
theorem fork_apart_any {k : Kernel} (w : Wf t k) (p : Who) :
    Apart t ((Family.fork t k).view p) ((Family.fork t k).view p.other) := by
  cases p
  · exact fork_apart w
  · exact (fork_apart w).symm

/-! ### C115 -/

/-- C115: memory allocated with `copy()` before a `fork` is, in the parent and in the child, an array
of bytes of its own: it holds at first what it held at the moment of the `fork`, and from then on what
this process stored last — whatever the other process does. -/
theorem C115_private (wf : Wf t k0) {w0 w : World} (reach : Reach tab t k0 w0) {opts : Options}
    (sane : (Op.alloc opts).Sane t w0) {k1 : Kernel} {m : MapMut}
    (call : opts.alloc t w0.k = .ok (k1, .ok m)) (access : opts.protect ≠ .readWrite)
    {c0 c : Nat → Byte} (tr : Cells tab t w0.next m true (w0.put k1 (.map m)) w c0) {p : Who}
    {f : Family} (since : PrivateSince t p m (Family.fork t w.k) c0 f c) {j : Nat} (hj : j < m.len) :
    m.get (f.view p) j = .ok (c j) := by
  have hs : anonShared opts.protect = false := by
    cases h : opts.protect <;> first | rfl | exact absurd h access
  have hpos : 0 < m.len := by omega
  obtain ⟨o, d, r, g⟩ := alloc_cells wf reach sane call (by rw [hs]; exact tr) hpos
  rw [hs] at g
  have v := r.inv wf
  have ap := fork_apart_any v.wf p
  obtain ⟨ap1, g1, -⟩ := PrivateSince.inv since ap (g.fork v.wf hpos p)
    ((g.fork v.wf hpos p.other).alone ap.wu hpos) hpos
  exact g1.get ap1.wv hj

/-- C115: memory allocated with `write()` before a `fork` is one array of bytes for both processes: what
either stores, both see. -/
theorem C115_common (wf : Wf t k0) {w0 w : World} (reach : Reach tab t k0 w0) {opts : Options}
    (sane : (Op.alloc opts).Sane t w0) {k1 : Kernel} {m : MapMut}
    (call : opts.alloc t w0.k = .ok (k1, .ok m)) (access : opts.protect = .readWrite)
    {c0 c : Nat → Byte} (tr : Cells tab t w0.next m false (w0.put k1 (.map m)) w c0)
    {f : Family} (since : CommonSince t m (Family.fork t w.k) c0 f c) (p : Who) {j : Nat}
    (hj : j < m.len) : m.get (f.view p) j = .ok (c j) := by
  have hs : anonShared opts.protect = true := by rw [access]; rfl
  have hpos : 0 < m.len := by omega
  obtain ⟨o, d, r, g⟩ := alloc_cells wf reach sane call (by rw [hs]; exact tr) hpos
  rw [hs] at g
  have v := r.inv wf
  obtain ⟨ap1, g1⟩ := CommonSince.inv since (fork_apart_any v.wf) (g.fork v.wf hpos) hpos p
  exact g1.get ap1.wv hj

/-! ### C116 -/

/-- C116: a copy-on-write map of a file made before a `fork` has, in the parent and in the child, bytes
of its own: those it had at the moment of the `fork` and those this process has stored since.  No
action of the other process changes them; every other byte is the file's present one. -/
theorem C116_copy (wf : Wf t k0) {w0 w : World} (reach : Reach tab t k0 w0) {opts : Options}
    (fits : Fits t opts) {fd : Nat} {x : Fd} (file : w0.k.fds fd = some x) {k1 : Kernel} {m : MapMut}
    (call : opts.mapIf tab t w0.k fd = .ok (k1, .ok (some m)))
    (access : opts.protect = .readCopy ∨ opts.protect = .readExec) {ov0 ov : Nat → Option Byte}
    (tr : Overlay tab t w0.next m x.obj opts.offset (w0.put k1 (.map m)) w ov0) {p : Who} {f : Family}
    (since : OverlaySince t p m x.obj opts.offset (Family.fork t w.k) ov0 f ov) {j : Nat}
    (hj : j < m.len) :
    m.get (f.view p) j = if (opts.offset + j) / k0.page * k0.page < f.k.size x.obj then
      .ok ((ov j).getD (f.k.data x.obj (opts.offset + j))) else .error .memory := by
  obtain ⟨a, b, c⟩ := made_map wf reach fits file call
  have hs : sharedOf opts.protect = false := by rcases access with h | h <;> rw [h] <;> rfl
  rw [hs] at b
  obtain ⟨r, -, -, g, l⟩ := tr.inv wf a (Nat.lt_succ_self _)
    (by simp only [World.put, if_true]) b c
  have v := r.inv wf
  obtain ⟨ap, g1, l1, hpg⟩ := OverlaySince.inv since (fork_apart_any v.wf p) (over_fork g p) (laid_fork v.wf l p)
  have hpg : f.k.page = k0.page := hpg.trans v.page
  obtain ⟨e, h1, h2, h3, -, h5⟩ := g1 j hj
  obtain ⟨v1, v2, v3⟩ := view_k f p
  rw [MapMut.get, if_pos hj, load_over ap.wv.page_pos h1 h3 h5, h2, l1 j hj e h1, v1, v2, v3, hpg]

end

/-! ### Non-vacuity -/

/-- A program that allocates 5000 bytes with access `o`, and sets byte 4500 to 7. -/
def forkee (o : Options) : World :=
  ((World.start (demo 0)).next! (.alloc (o.setLen (.exact 5000)))).next! (.set 0 4500 7)

/-- It forks; the child sets byte 4500 to 8, and the parent sets byte 3 to 9. -/
def forked (o : Options) : Family :=
  (((Family.fork ⟨.w64, true⟩ (forkee o).k).act ⟨.w64, true⟩ .child (.store (4096000 + 4500) 8)).act
    ⟨.w64, true⟩ .parent (.store (4096000 + 3) 9))

theorem forkee_made {o : Options}
    (h1 : (World.start (demo 0)).step demoTab ⟨.w64, true⟩ (.alloc (o.setLen (.exact 5000))) =
      .ok ((World.start (demo 0)).next! (.alloc (o.setLen (.exact 5000)))))
    (h2 : ((World.start (demo 0)).next! (.alloc (o.setLen (.exact 5000)))).held 0 =
      some (.map ⟨4096000, 5000⟩)) :
    ∃ k1, (o.setLen (.exact 5000)).alloc ⟨.w64, true⟩ (World.start (demo 0)).k =
      .ok (k1, .ok ⟨4096000, 5000⟩) ∧
      (World.start (demo 0)).next! (.alloc (o.setLen (.exact 5000))) =
        (World.start (demo 0)).put k1 (.map ⟨4096000, 5000⟩) := by
  simp only [World.step, bind, Except.bind, pure, Except.pure] at h1
  cases hx : (o.setLen (.exact 5000)).alloc ⟨.w64, true⟩ (World.start (demo 0)).k with
  | error e => rw [hx] at h1; cases h1
  | ok x =>
    obtain ⟨k1, r⟩ := x
    rw [hx] at h1
    cases r with
    | error e => injection h1 with h1; rw [← h1] at h2; cases h2
    | ok m =>
      injection h1 with h1
      have hm : m = ⟨4096000, 5000⟩ := by
        have h0 : ((World.start (demo 0)).put k1 (.map m)).held 0 = some (.map m) := by
          simp only [World.put, World.start, if_true]
        rw [h1] at h0
        exact Handle.map.inj (Option.some.inj (h0.symm.trans h2))
      subst hm
      exact ⟨k1, rfl, h1.symm⟩

/-- `m.set` succeeds (helper for the examples). -/
theorem set_ok {k : Kernel} {m : MapMut} {idx : Nat} {b : Byte}
    (h : (m.set k idx b).isOk = true) : ∃ k', m.set k idx b = .ok k' := by
  cases hx : m.set k idx b with
  | ok k' => exact ⟨k', rfl⟩
  | error e => rw [hx] at h; cases h

/-- Non-vacuity of `C115_private`: with `copy()`, the parent reads 7 and 9, the child 8 and 0. -/
example : (⟨4096000, 5000⟩ : MapMut).get ((forked Options.new.copy).view .parent) 4500 = .ok 7 ∧
    (⟨4096000, 5000⟩ : MapMut).get ((forked Options.new.copy).view .parent) 3 = .ok 9 ∧
    (⟨4096000, 5000⟩ : MapMut).get ((forked Options.new.copy).view .child) 4500 = .ok 8 ∧
    (⟨4096000, 5000⟩ : MapMut).get ((forked Options.new.copy).view .child) 3 = .ok 0 := by
  have sane : (Op.alloc (Options.new.copy.setLen (.exact 5000))).Sane ⟨.w64, true⟩
    (World.start (demo 0)) := by show (0 + 5000 : Nat) < _; decide
  obtain ⟨k1, a1, a2⟩ := forkee_made (o := Options.new.copy) (World.next!_eq (by decide +kernel))
    (held_map (by decide +kernel))
  have t1 : Cells demoTab ⟨.w64, true⟩ 0 ⟨4096000, 5000⟩ true _ _ _ :=
    .made (w := (World.start (demo 0)).next! (.alloc (Options.new.copy.setLen (.exact 5000))))
  have t2 := t1.write (idx := 4500) (b := 7) (w2 := forkee Options.new.copy)
    (World.next!_eq (by decide +kernel))
  have parent := fun j => C115_private (demo_wf 0) .start sane a1 (by decide) (j := j) (p := .parent)
    (by rw [← a2]; exact t2)
    (PrivateSince.write (idx := 3) (b := 9) (.theirs (a := .store (4096000 + 4500) 8) .start)
      (set_ok (by decide +kernel)).choose_spec)
  have child := fun j => C115_private (demo_wf 0) .start sane a1 (by decide) (j := j) (p := .child)
    (by rw [← a2]; exact t2)
    (PrivateSince.theirs (a := .store (4096000 + 3) 9) (.write (idx := 4500) (b := 8) .start
      (set_ok (by decide +kernel)).choose_spec))
  exact ⟨parent 4500 (by decide), parent 3 (by decide), child 4500 (by decide), child 3 (by decide)⟩

/-- Non-vacuity of `C115_common`: with `write()`, both read 8 and 9. -/
example : ∀ p, (⟨4096000, 5000⟩ : MapMut).get ((forked Options.new.write).view p) 4500 = .ok 8 ∧
    (⟨4096000, 5000⟩ : MapMut).get ((forked Options.new.write).view p) 3 = .ok 9 ∧
    (⟨4096000, 5000⟩ : MapMut).get ((forked Options.new.write).view p) 4 = .ok 0 := by
  have sane : (Op.alloc (Options.new.write.setLen (.exact 5000))).Sane ⟨.w64, true⟩
    (World.start (demo 0)) := by show (0 + 5000 : Nat) < _; decide
  obtain ⟨k1, a1, a2⟩ := forkee_made (o := Options.new.write) (World.next!_eq (by decide +kernel))
    (held_map (by decide +kernel))
  have t1 : Cells demoTab ⟨.w64, true⟩ 0 ⟨4096000, 5000⟩ false _ _ _ :=
    .made (w := (World.start (demo 0)).next! (.alloc (Options.new.write.setLen (.exact 5000))))
  have t2 := t1.write (idx := 4500) (b := 7) (w2 := forkee Options.new.write)
    (World.next!_eq (by decide +kernel))
  have both := fun p j => C115_common (demo_wf 0) .start sane a1 rfl (j := j) (p := p)
    (by rw [← a2]; exact t2)
    (CommonSince.write (p := .parent) (idx := 3) (b := 9) (.write (p := .child) (idx := 4500) (b := 8)
      .start (set_ok (by decide +kernel)).choose_spec) (set_ok (by decide +kernel)).choose_spec)
  exact fun p => ⟨both p 4500 (by decide), both p 3 (by decide), both p 4 (by decide)⟩

/-- Non-vacuity of C116: a program maps the demo file copy-on-write, sets byte 5 of the map to 99
(`priv2`), and forks; the child sets byte 5 to 98 and writes byte 5000 of the file.  The parent's map has 99
and 6 as its own bytes 5 and 6, and shows the file's new byte 5000. -/
example : (let f := ((Family.fork ⟨.w64, true⟩ priv2.k).act ⟨.w64, true⟩ .child
      (.store (8192000 + 5) 98)).act ⟨.w64, true⟩ .child (.pwrite 3 5000 88)
    (⟨8192000, 10000⟩ : MapMut).get (f.view .parent) 5 = .ok 99 ∧
    (⟨8192000, 10000⟩ : MapMut).get (f.view .parent) 6 = .ok 6 ∧
    (⟨8192000, 10000⟩ : MapMut).get (f.view .parent) 5000 = .ok 88) := by
  have f1 : Fits ⟨.w64, true⟩ Options.new.copy := ⟨trivial, trivial, by decide⟩
  obtain ⟨k1, a1, a2⟩ := next_map (w := World.start (demo 0)) (o := Options.new.copy) (fd := 3)
    (m := ⟨8192000, 10000⟩) (by decide +kernel)
  have t1 : Overlay demoTab ⟨.w64, true⟩ 0 ⟨8192000, 10000⟩ 0 0 priv1 priv1 _ := .made
  have t2 := t1.write (idx := 5) (b := 99) (w2 := priv2) (World.next!_eq (by decide +kernel))
  have s2 := fun ov => OverlaySince.theirs (t := ⟨.w64, true⟩) (p := .parent)
      (m := ⟨8192000, 10000⟩) (o := 0) (off := 0) (f0 := Family.fork ⟨.w64, true⟩ priv2.k) (ov0 := ov)
      (a := .pwrite 3 5000 88) (.theirs (a := .store (8192000 + 5) 98) .start
      (by decide +kernel)) (by decide +kernel)
  have h := fun j => C116_copy (demo_wf 0) (x := ⟨0, true, true⟩) .start f1 rfl a1 (.inl rfl)
    (p := .parent) (j := j) (by rw [← a2]; exact t2) (s2 _)
  refine ⟨?_, ?_, ?_⟩
  · refine (h 5 (by decide)).trans ?_
    rw [if_pos (by decide +kernel)]; decide +kernel
  · refine (h 6 (by decide)).trans ?_
    rw [if_pos (by decide +kernel)]; decide +kernel
  · refine (h 5000 (by decide)).trans ?_
    rw [if_pos (by decide +kernel)]; decide +kernel

end Vmap
