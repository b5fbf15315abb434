import Verif.Proofs.Cells
/-
Property theorems C95–C98: what maps and allocated memory show, at every point of every program.
-/
namespace Vmap
open Kernel Spec

section
variable {tab : SysTable} {t : Target} {k0 : Kernel}

/-- The map just made by `map_if` (helper). -/
theorem made_map (wf : Wf t k0) {w0 : World} (reach : Reach tab t k0 w0) {opts : Options}
    (fits : Fits t opts) {fd : Nat} {f : Fd} (file : w0.k.fds fd = some f) {k1 : Kernel} {m : MapMut}
    (call : opts.mapIf tab t w0.k fd = .ok (k1, .ok (some m))) :
    Reach tab t k0 (w0.put k1 (.map m)) ∧
      k1.Over m f.obj opts.offset (sharedOf opts.protect) ∧ k1.Laid m (fun _ => none) := by
  have st : w0.step tab t (.mapIf opts fd) = .ok (w0.put k1 (.map m)) := by
    simp only [World.step, call, bind, Except.bind, pure, Except.pure]
  have v := reach.inv wf
  obtain ⟨k', r, h1, g⟩ := mapIf_keeps tab v.wf fits (fd := fd)
  rw [call] at h1
  obtain ⟨rfl, rfl⟩ := ok_pair h1
  obtain ⟨f', p, n, hf', -, -, -, c⟩ := g.made m rfl
  rw [file] at hf'
  injection hf' with hf'
  subst hf'
  refine ⟨.step (op := .mapIf opts fd) reach fits st, c.maps.over (by cases opts.protect <;> rfl), ?_⟩
  intro j hj e he
  rw [g.page] at he
  have hon := onPage_byte (u := w0.k.page) v.wf.page_pos hj
  obtain ⟨a, b⟩ := (onPage_iff c.pages _).mp hon
  obtain ⟨e1, x1, x2, -⟩ := c.mapped _ a b
  rw [he] at x1
  injection x1 with x1
  subst x1
  unfold at?; rw [x2]; rfl

/-- The map just made by `open_if` (helper). -/
theorem made_open (wf : Wf t k0) {w0 : World} (reach : Reach tab t k0 w0) {opts : Options}
    (fits : Fits t opts) {path : String} {fd : Nat} {f : Fd} {k1 : Kernel} {m : MapMut}
    (call : opts.openIf tab t w0.k path = .ok (k1, .ok (some m, fd))) (file : k1.fds fd = some f) :
    Reach tab t k0 (w0.put k1 (.map m)) ∧
      k1.Over m f.obj opts.offset (sharedOf opts.protect) ∧ k1.Laid m (fun _ => none) := by
  have st : w0.step tab t (.openIf opts path) = .ok (w0.put k1 (.map m)) := by
    simp only [World.step, call, bind, Except.bind, pure, Except.pure]
  have v := reach.inv wf
  have ho := open_outcome tab w0.k opts.openOptions path
  generalize hx : opts.openOptions.open tab w0.k path = x at ho
  obtain ⟨k2, r2⟩ := x
  simp only at ho
  have w2 := ho.wf v.wf
  cases r2 with
  | error e =>
    simp only [Options.openIf, hx, pure, Except.pure] at call
    injection call with call; injection call with _ call; cases call
  | ok fd' =>
    obtain ⟨k', r, h1, g⟩ := mapIf_keeps tab w2 fits (fd := fd')
    simp only [Options.openIf, hx, h1, bind, Except.bind, pure, Except.pure] at call
    cases r with
    | error e => injection call with call; injection call with _ call; cases call
    | ok x =>
      injection call with call
      injection call with c1 c2
      injection c2 with c2
      injection c2 with c2 c3
      subst c1 c2 c3
      obtain ⟨f', p, n, hf', -, -, -, c⟩ := g.made m rfl
      rw [g.fds, hf'] at file
      injection file with file
      subst file
      refine ⟨.step (op := .openIf opts path) reach fits st, c.maps.over (by cases opts.protect <;> rfl),
        ?_⟩
      intro j hj e he
      rw [g.page] at he
      have hon := onPage_byte (u := k2.page) w2.page_pos hj
      obtain ⟨a, b⟩ := (onPage_iff c.pages _).mp hon
      obtain ⟨e1, x1, x2, -⟩ := c.mapped _ a b
      rw [he] at x1
      injection x1 with x1
      subst x1
      unfold at?; rw [x2]; rfl

theorem FileMap.reach {w : World} {i m o off p} (wf : Wf t k0)
    (h : FileMap tab t k0 w i m o off p) :
    Reach tab t k0 w ∧ i < w.next ∧ w.held i = some (.map m) ∧ w.k.Over m o off (sharedOf p) := by
  cases h with
  | map reach fits file call later held =>
    obtain ⟨a, b, -⟩ := made_map wf reach fits file call
    obtain ⟨c, -, d⟩ := over_later wf a later (Nat.lt_succ_self _) b held
    exact ⟨later.reach a, d, held, c⟩
  | «open» reach fits call file later held =>
    obtain ⟨a, b, -⟩ := made_open wf reach fits call file
    obtain ⟨c, -, d⟩ := over_later wf a later (Nat.lt_succ_self _) b held
    exact ⟨later.reach a, d, held, c⟩

/-- A map of a file stays one, until it is dropped. -/
theorem FileMap.step {w w' : World} {i m o off p}
    (h : FileMap tab t k0 w i m o off p) {op : Op} (sane : op.Sane t w)
    (st : w.step tab t op = .ok w') (held : w'.held i = some (.map m)) :
    FileMap tab t k0 w' i m o off p := by
  cases h with
  | map reach fits file call later _ => exact .map reach fits file call (.step later sane st trivial) held
  | «open» reach fits call file later _ =>
    exact .open reach fits call file (.step later sane st trivial) held

/-! ### C95 -/

/-- C95: a map made for reading, or for writing to the file, shows the file as it is now, at every
later point of every program, whatever has happened to the file in the meantime.  A byte whose page lies
behind the file's present end cannot be read (SIGBUS). -/
theorem C95_shared (wf : Wf t k0) {w : World} {i m o off p} (h : FileMap tab t k0 w i m o off p)
    (hp : p = .readOnly ∨ p = .readWrite) {j : Nat} (hj : j < m.len) :
    m.get w.k j = if (off + j) / k0.page * k0.page < w.k.size o then
      .ok (w.k.data o (off + j)) else .error .memory := by
  obtain ⟨r, -, -, ov⟩ := h.reach wf
  have v := r.inv wf
  have hs : sharedOf p = true := by rcases hp with rfl | rfl <;> rfl
  rw [hs] at ov
  obtain ⟨e, h1, h2, h3, h4, h5⟩ := ov j hj
  rw [MapMut.get, if_pos hj, load_over v.wf.page_pos h1 h3 h5, h2, v.page,
    show w.k.at? e _ = none by unfold at?; rw [v.wf.shared _ e h1 h4]; rfl]
  rfl

/-- C95: any two such maps of the same file agree on every byte they have in common. -/
theorem C95_agree (wf : Wf t k0) {w : World} {i m off p i' m' off' p' o}
    (h : FileMap tab t k0 w i m o off p) (h' : FileMap tab t k0 w i' m' o off' p')
    (hp : p = .readOnly ∨ p = .readWrite) (hp' : p' = .readOnly ∨ p' = .readWrite) {j j' : Nat}
    (hj : j < m.len) (hj' : j' < m'.len) (same : off + j = off' + j') :
    m.get w.k j = m'.get w.k j' := by
  rw [C95_shared wf h hp hj, C95_shared wf h' hp' hj', same]

/-- C95: a byte stored through one of them is seen at once through all of them, and no other byte of
any of them changes. -/
theorem C95_written (wf : Wf t k0) {w w' : World} {i m off p i' m' off' p' o}
    (h : FileMap tab t k0 w i m o off p) (h' : FileMap tab t k0 w i' m' o off' p')
    (hp : p = .readOnly ∨ p = .readWrite) (hp' : p' = .readOnly ∨ p' = .readWrite) {idx : Nat}
    {b : Byte} (st : w.step tab t (.set i idx b) = .ok w') {j' : Nat} (hj' : j' < m'.len) :
    idx < m.len ∧ m'.get w'.k j' = if off' + j' = off + idx then .ok b else m'.get w.k j' := by
  obtain ⟨r, -, hm, ov⟩ := h.reach wf
  obtain ⟨-, -, hm', -⟩ := h'.reach wf
  have v := r.inv wf
  have hs : sharedOf p = true := by rcases hp with rfl | rfl <;> rfl
  rw [hs] at ov
  obtain ⟨hlt, k', hk, hst⟩ := set_fx hm st
  have held : w'.held i' = some (.map m') := by rw [hk]; exact hm'
  have h2 := h'.step (op := .set i idx b) trivial st held
  refine ⟨hlt, ?_⟩
  obtain ⟨e, e1, e2, e3, e4, e5⟩ := ov idx hlt
  have hks : k' = w.k.setByte o (off + idx) b ∧ (off + idx) / k0.page * k0.page < w.k.size o := by
    unfold Kernel.store at hst
    rw [e1] at hst
    dsimp only at hst
    by_cases hb : (e.prot.w && w.k.backed e) = true
    · rw [if_pos hb, e4, if_pos rfl, e2, e3] at hst
      injection hst with hst
      refine ⟨hst.symm, ?_⟩
      have hb := (Bool.and_eq_true _ _ ▸ hb).2
      simp only [backed, decide_eq_true_eq, e2] at hb
      have hu := v.wf.page_pos
      rw [← v.page, ← e3, Nat.add_comm, Nat.add_mul_div_right _ _ hu,
        Nat.div_eq_of_lt (Nat.mod_lt _ hu), Nat.zero_add]
      exact hb
    · rw [if_neg hb] at hst; cases hst
  rw [C95_shared wf h2 hp' hj', C95_shared wf h' hp' hj']
  have hsz : w'.k.size o = w.k.size o := by rw [hk]; show k'.size o = _; rw [hks.1]; rfl
  have hdt : w'.k.data o (off' + j') = if off' + j' = off + idx then b else w.k.data o (off' + j') := by
    rw [hk]; show k'.data o _ = _; rw [hks.1]
    show (if o = o ∧ off' + j' = off + idx then b else _) = _
    by_cases hh : off' + j' = off + idx
    · rw [if_pos hh, if_pos ⟨rfl, hh⟩]
    · rw [if_neg hh, if_neg (fun x => hh x.2)]
  rw [hsz, hdt]
  by_cases hh : off' + j' = off + idx
  · rw [if_pos hh, if_pos hh, hh, if_pos hks.2]
  · rw [if_neg hh, if_neg hh]

/-! ### C96 -/

/-- C96: a copy-on-write map (made by `map_if`) shows, at every later point, for every byte the map's
own value if it has one and else the file's present value; `Overlay` says which bytes are the
map's own. -/
theorem C96_private (wf : Wf t k0) {w0 w : World} (reach : Reach tab t k0 w0) {opts : Options}
    (fits : Fits t opts) {fd : Nat} {f : Fd} (file : w0.k.fds fd = some f) {k1 : Kernel} {m : MapMut}
    (call : opts.mapIf tab t w0.k fd = .ok (k1, .ok (some m)))
    (hp : opts.protect = .readCopy ∨ opts.protect = .readExec) {ov : Nat → Option Byte}
    (tr : Overlay tab t w0.next m f.obj opts.offset (w0.put k1 (.map m)) w ov) {j : Nat}
    (hj : j < m.len) :
    m.get w.k j = if (opts.offset + j) / k0.page * k0.page < w.k.size f.obj then
      .ok ((ov j).getD (w.k.data f.obj (opts.offset + j))) else .error .memory := by
  obtain ⟨a, b, c⟩ := made_map wf reach fits file call
  have hs : sharedOf opts.protect = false := by rcases hp with h | h <;> rw [h] <;> rfl
  rw [hs] at b
  obtain ⟨r, -, -, o, l⟩ := tr.inv wf a (Nat.lt_succ_self _)
    (by simp only [World.put, if_true]) b c
  have v := r.inv wf
  obtain ⟨e, h1, h2, h3, -, h5⟩ := o j hj
  rw [MapMut.get, if_pos hj, load_over v.wf.page_pos h1 h3 h5, h2, l j hj e h1, v.page]

/-- C96 for `open_if`. -/
theorem C96_private_open (wf : Wf t k0) {w0 w : World} (reach : Reach tab t k0 w0) {opts : Options}
    (fits : Fits t opts) {path : String} {fd : Nat} {f : Fd} {k1 : Kernel} {m : MapMut}
    (call : opts.openIf tab t w0.k path = .ok (k1, .ok (some m, fd))) (file : k1.fds fd = some f)
    (hp : opts.protect = .readCopy ∨ opts.protect = .readExec) {ov : Nat → Option Byte}
    (tr : Overlay tab t w0.next m f.obj opts.offset (w0.put k1 (.map m)) w ov) {j : Nat}
    (hj : j < m.len) :
    m.get w.k j = if (opts.offset + j) / k0.page * k0.page < w.k.size f.obj then
      .ok ((ov j).getD (w.k.data f.obj (opts.offset + j))) else .error .memory := by
  obtain ⟨a, b, c⟩ := made_open wf reach fits call file
  have hs : sharedOf opts.protect = false := by rcases hp with h | h <;> rw [h] <;> rfl
  rw [hs] at b
  obtain ⟨r, -, -, o, l⟩ := tr.inv wf a (Nat.lt_succ_self _)
    (by simp only [World.put, if_true]) b c
  have v := r.inv wf
  obtain ⟨e, h1, h2, h3, -, h5⟩ := o j hj
  rw [MapMut.get, if_pos hj, load_over v.wf.page_pos h1 h3 h5, h2, l j hj e h1, v.page]

/-! ### C97 -/

/-- What is known of allocated memory at every later point (helper). -/
theorem alloc_cells (wf : Wf t k0) {w0 w : World} (reach : Reach tab t k0 w0) {opts : Options}
    (sane : (Op.alloc opts).Sane t w0) {k1 : Kernel} {m : MapMut}
    (call : opts.alloc t w0.k = .ok (k1, .ok m)) {c : Nat → Byte}
    (tr : Cells tab t w0.next m (!anonShared opts.protect) (w0.put k1 (.map m)) w c)
    (pos : 0 < m.len) :
    ∃ o d, Reach tab t k0 w ∧ CellInv w.k m o d (anonShared opts.protect) c := by
  have st : w0.step tab t (.alloc opts) = .ok (w0.put k1 (.map m)) := by
    simp only [World.step, call, bind, Except.bind, pure, Except.pure]
  have v := reach.inv wf
  have own := C77_alloc_own wf reach sane call
  obtain ⟨len, -, hc, -⟩ := alloc_cases v.wf opts sane
  rcases hc with ⟨e, he⟩ | ⟨p, k2, -, -, hne, hfit, hk, wf', cr, he⟩
  · rw [call] at he
    injection he with he
    injection he with h1 h2
    cases h2
  · rw [call] at he
    injection he with he
    injection he with h1 h2
    injection h2 with h2
    subst h1
    subst h2
    have hpg : k1.page = w0.k.page := by rw [hk]; rfl
    have hr : (protOf opts.protect).r = true := by cases opts.protect <;> rfl
    have hov := MapsAll.over (m := ⟨p * w0.k.page + opts.offset % w0.k.page, len⟩) cr.maps hr
    have c0 : CellInv k1 ⟨p * w0.k.page + opts.offset % w0.k.page, len⟩ w0.k.fresh
        (opts.offset % w0.k.page) (anonShared opts.protect) (fun _ => 0) := by
      have hz : ∀ x, k1.data w0.k.fresh x = 0 := by
        intro x; rw [hk]; exact if_pos rfl
      refine ⟨own, hov, ?_, fun _ => hz, fun _ => none, ?_, fun _ _ => (hz _).symm⟩
      · intro j hj
        obtain ⟨e, x1, x2, x3, -, -, -, x7⟩ := cr.maps j hj
        simp only [backed, decide_eq_true_eq, x2] at x7
        have hu := v.wf.page_pos
        rw [hpg] at x7 x3 ⊢
        rw [← x3, Nat.add_comm, Nat.add_mul_div_right _ _ hu,
          Nat.div_eq_of_lt (Nat.mod_lt _ hu), Nat.zero_add]
        exact x7
      · intro j hj e he
        rw [hpg] at he
        have hon := onPage_byte (u := w0.k.page) v.wf.page_pos hj
        obtain ⟨a, b⟩ := (onPage_iff cr.pages _).mp hon
        obtain ⟨e1, x1, x2, -⟩ := cr.mapped _ a b
        rw [he] at x1
        injection x1 with x1
        subst x1
        unfold at?; rw [x2]; rfl
    obtain ⟨r, -, -, g⟩ := tr.inv wf (.step reach sane st) pos (Nat.lt_succ_self _)
      (by simp only [World.put, if_true]) c0
    exact ⟨_, _, r, g⟩

/-- C97: allocated memory is an array of bytes, at every later point of every program: it reads as
zero until stored to, then as what was stored last, and reading it never faults.  (With
copy-on-write access, `Advise::WillNotNeed` makes it zero again.) -/
theorem C97_alloc (wf : Wf t k0) {w0 w : World} (reach : Reach tab t k0 w0) {opts : Options}
    (sane : (Op.alloc opts).Sane t w0) {k1 : Kernel} {m : MapMut}
    (call : opts.alloc t w0.k = .ok (k1, .ok m)) {c : Nat → Byte}
    (tr : Cells tab t w0.next m (!anonShared opts.protect) (w0.put k1 (.map m)) w c) {j : Nat}
    (hj : j < m.len) : m.get w.k j = .ok (c j) := by
  obtain ⟨o, d, r, g⟩ := alloc_cells wf reach sane call tr (by omega)
  have v' := r.inv wf
  obtain ⟨e, h1, h2, h3, -, h5⟩ := g.over j hj
  obtain ⟨ov, l1, l2⟩ := g.laid
  rw [MapMut.get, if_pos hj, load_over v'.wf.page_pos h1 h3 h5, h2, if_pos (g.inside j hj),
    l1 j hj e h1, l2 j hj]

/-! ### C98 -/

/-- C98 in full: reading a byte of a map of a file never faults, whatever the program has done since
it made the map.  False of the code: `C98_false`. -/
def C98_full : Prop :=
  ∀ (tab : SysTable) (t : Target) (k0 : Kernel) (w : World) (i : Nat) (m : MapMut) (o : Obj)
    (off : Nat) (p : Protect), Wf t k0 → FileMap tab t k0 w i m o off p →
    ∀ j, j < m.len → ∃ b, m.get w.k j = .ok b

/-- C98, exactly: a byte of a map of a file can be read if and only if its page begins inside the
file as it is now; otherwise reading it is a fault (SIGBUS). -/
theorem C98_exact (wf : Wf t k0) {w : World} {i m o off p} (h : FileMap tab t k0 w i m o off p)
    {j : Nat} (hj : j < m.len) :
    ((off + j) / k0.page * k0.page < w.k.size o → ∃ b, m.get w.k j = .ok b) ∧
    (w.k.size o ≤ (off + j) / k0.page * k0.page → m.get w.k j = .error .memory) := by
  obtain ⟨r, -, -, ov⟩ := h.reach wf
  have v := r.inv wf
  obtain ⟨e, h1, h2, h3, h4, h5⟩ := ov j hj
  rw [MapMut.get, if_pos hj, load_over v.wf.page_pos h1 h3 h5, h2, v.page]
  exact ⟨fun hh => ⟨_, if_pos hh⟩, fun hh => if_neg (by omega)⟩

/-- C98 while the file is at least as long as the map needs.  (Missing: files that have been
shortened since, by this program — `Options::resize` or `truncate` on a second map of the same file — or
by any other.) -/
theorem C98_partial (wf : Wf t k0) {w : World} {i m o off p} (h : FileMap tab t k0 w i m o off p)
    (hlen : off + m.len ≤ w.k.size o) {j : Nat} (hj : j < m.len) : ∃ b, m.get w.k j = .ok b := by
  refine (C98_exact wf h hj).1 ?_
  have := Nat.div_mul_le_self (off + j) k0.page
  omega

end

/-! ### Non-vacuity -/

/-- A program with two maps of the demo file: all of it, writable, and bytes 5000 to 7999, read-only. -/
def twoMaps : World :=
  ((World.start (demo 0)).next! (.mapIf Options.new.write 3)).next!
    (.mapIf ((Options.new.setOffset 5000).setLen (.exact 3000)) 4)

/-- `mapIf`'s result in a state whose step can be computed (helper for the examples). -/
theorem next_map {w : World} {o : Options} {fd : Nat} {m : MapMut}
    (h : (match o.mapIf demoTab ⟨.w64, true⟩ w.k fd with
      | .ok (_, .ok (some m')) => decide (m'.ptr = m.ptr ∧ m'.len = m.len)
      | _ => false) = true) :
    ∃ k1, o.mapIf demoTab ⟨.w64, true⟩ w.k fd = .ok (k1, .ok (some m)) ∧
      w.next! (.mapIf o fd) = w.put k1 (.map m) := by
  cases hx : o.mapIf demoTab ⟨.w64, true⟩ w.k fd with
  | error e => rw [hx] at h; cases h
  | ok x =>
    obtain ⟨k1, r⟩ := x
    cases r with
    | error e => rw [hx] at h; cases h
    | ok x =>
      cases x with
      | none => rw [hx] at h; cases h
      | some m' =>
        rw [hx] at h
        simp only [decide_eq_true_eq] at h
        have : m' = m := by cases m; cases m'; simp only at h; rw [h.1, h.2]
        subst this
        refine ⟨k1, rfl, ?_⟩
        simp only [World.next!, World.step, hx, bind, Except.bind, pure, Except.pure]

theorem twoMaps_maps :
    FileMap demoTab ⟨.w64, true⟩ (demo 0) twoMaps 0 ⟨8192000, 10000⟩ 0 0 .readWrite ∧
    FileMap demoTab ⟨.w64, true⟩ (demo 0) twoMaps 1 ⟨16384904, 3000⟩ 0 5000 .readOnly := by
  have f1 : Fits ⟨.w64, true⟩ Options.new.write := ⟨trivial, trivial, by decide⟩
  have f2 : Fits ⟨.w64, true⟩ ((Options.new.setOffset 5000).setLen (.exact 3000)) :=
    ⟨trivial, show (3000 : Nat) < _ by decide, show (5000 : Nat) < _ by decide⟩
  obtain ⟨k1, a1, a2⟩ := next_map (w := World.start (demo 0)) (o := Options.new.write) (fd := 3)
    (m := ⟨8192000, 10000⟩) (by decide +kernel)
  have r1 : Reach demoTab ⟨.w64, true⟩ (demo 0) ((World.start (demo 0)).next! (.mapIf Options.new.write 3)) :=
    .step (op := .mapIf Options.new.write 3) .start f1 (World.next!_eq (by decide +kernel))
  constructor
  · refine .map (f := ⟨0, true, true⟩) .start f1 rfl a1 ?_ rfl
    rw [← a2]
    exact .step (op := .mapIf ((Options.new.setOffset 5000).setLen (.exact 3000)) 4) .refl f2
      (World.next!_eq (by decide +kernel)) trivial
  · obtain ⟨k2, b1, b2⟩ := next_map
      (w := (World.start (demo 0)).next! (.mapIf Options.new.write 3))
      (o := (Options.new.setOffset 5000).setLen (.exact 3000)) (fd := 4)
      (m := ⟨16384904, 3000⟩) (by decide +kernel)
    refine .map (f := ⟨0, true, false⟩) r1 f2 rfl b1 ?_ rfl
    rw [← b2]
    exact .refl

/-- Non-vacuity of C95: a byte stored through the first map is seen through the second. -/
example : ∃ w', twoMaps.step demoTab ⟨.w64, true⟩ (.set 0 5007 99) = .ok w' ∧
    (⟨16384904, 3000⟩ : MapMut).get twoMaps.k 7 = .ok (UInt8.ofNat (5007 % 251)) ∧
    (⟨16384904, 3000⟩ : MapMut).get w'.k 7 = .ok 99 := by
  refine ⟨_, World.next!_eq (by decide +kernel), by decide +kernel, ?_⟩
  have st := World.next!_eq (w := twoMaps) (op := .set 0 5007 99) (by decide +kernel)
  obtain ⟨-, h⟩ := C95_written (demo_wf 0) twoMaps_maps.1 twoMaps_maps.2 (.inr rfl) (.inl rfl) st
    (j' := 7) (by decide)
  rw [h]; rfl

/-- What a handle is, by computation (helper for the examples). -/
theorem held_map {w : World} {i : Nat} {m : MapMut}
    (h : (match w.held i with
      | some (.map m') => decide (m'.ptr = m.ptr ∧ m'.len = m.len)
      | _ => false) = true) : w.held i = some (.map m) := by
  split at h
  · rename_i m' hw
    simp only [decide_eq_true_eq] at h
    rw [hw]; cases m; cases m'; simp only at h; rw [h.1, h.2]
  · cases h

/-- A program that maps the demo file copy-on-write, -/
def priv1 : World := (World.start (demo 0)).next! (.mapIf Options.new.copy 3)
/-- sets byte 5 of the map to 99, -/
def priv2 : World := priv1.next! (.set 0 5 99)
/-- and then writes byte 6 -/
def priv3 : World := priv2.next! (.pwrite 3 6 77)
/-- and byte 5000 of the file. -/
def priv4 : World := priv3.next! (.pwrite 3 5000 88)

/-- Non-vacuity of C96: in this program the map shows its own bytes 5 and 6, and the file's byte
5000. -/
example : (⟨8192000, 10000⟩ : MapMut).get priv4.k 5 = .ok 99 ∧
    (⟨8192000, 10000⟩ : MapMut).get priv4.k 6 = .ok 6 ∧ priv4.k.data 0 5 = 5 ∧
    priv4.k.data 0 6 = 77 ∧ (⟨8192000, 10000⟩ : MapMut).get priv4.k 5000 = .ok 88 := by
  have f1 : Fits ⟨.w64, true⟩ Options.new.copy := ⟨trivial, trivial, by decide⟩
  obtain ⟨k1, a1, a2⟩ := next_map (w := World.start (demo 0)) (o := Options.new.copy) (fd := 3)
    (m := ⟨8192000, 10000⟩) (by decide +kernel)
  have t1 : Overlay demoTab ⟨.w64, true⟩ 0 ⟨8192000, 10000⟩ 0 0 priv1 priv1 _ := .made
  have t2 := t1.write (idx := 5) (b := 99) (w2 := priv2) (World.next!_eq (by decide +kernel))
  have t3 := t2.other (op := .pwrite 3 6 77) (w2 := priv3) trivial
    (World.next!_eq (by decide +kernel)) (held_map (by decide +kernel))
    (fun _ _ h => by cases h) (fun _ _ h => by cases h) (by decide +kernel)
  have t4 := t3.other (op := .pwrite 3 5000 88) (w2 := priv4) trivial
    (World.next!_eq (by decide +kernel)) (held_map (by decide +kernel))
    (fun _ _ h => by cases h) (fun _ _ h => by cases h) (by decide +kernel)
  have h := fun j => C96_private (demo_wf 0) (f := ⟨0, true, true⟩) .start f1 rfl a1 (.inl rfl)
    (j := j) (by rw [← a2]; exact t4)
  refine ⟨?_, ?_, by decide +kernel, by decide +kernel, ?_⟩
  · rw [h 5 (by decide), if_pos (by decide +kernel)]; decide +kernel
  · rw [h 6 (by decide), if_pos (by decide +kernel)]; decide +kernel
  · rw [h 5000 (by decide), if_pos (by decide +kernel)]; decide +kernel

/-- A program that allocates 5000 bytes, -/
def cell1 : World :=
  (World.start (demo 0)).next! (.alloc (Options.new.write.setLen (.exact 5000)))
/-- and sets byte 4500 to 7. -/
def cell2 : World := cell1.next! (.set 0 4500 7)

/-- Non-vacuity of C97. -/
example : (⟨4096000, 5000⟩ : MapMut).get cell2.k 4500 = .ok 7 ∧
    (⟨4096000, 5000⟩ : MapMut).get cell2.k 4501 = .ok 0 := by
  have sane : (Op.alloc (Options.new.write.setLen (.exact 5000))).Sane ⟨.w64, true⟩
    (World.start (demo 0)) := by show (0 + 5000 : Nat) < _; decide
  have hs : (World.start (demo 0)).step demoTab ⟨.w64, true⟩
    (.alloc (Options.new.write.setLen (.exact 5000))) = .ok cell1 := World.next!_eq (by decide +kernel)
  have hm : cell1.held 0 = some (.map ⟨4096000, 5000⟩) := held_map (by decide +kernel)
  simp only [World.step, bind, Except.bind, pure, Except.pure] at hs
  cases hx : (Options.new.write.setLen (.exact 5000)).alloc ⟨.w64, true⟩ (World.start (demo 0)).k with
  | error e => rw [hx] at hs; cases hs
  | ok x =>
    obtain ⟨k1, r⟩ := x
    rw [hx] at hs
    cases r with
    | error e => injection hs with hs; rw [← hs] at hm; cases hm
    | ok m =>
      injection hs with hs
      have hm' : m = ⟨4096000, 5000⟩ := by
        have h0 : ((World.start (demo 0)).put k1 (.map m)).held 0 = some (.map m) := by
          simp only [World.put, World.start, if_true]
        rw [hs] at h0
        exact Handle.map.inj (Option.some.inj (h0.symm.trans hm))
      subst hm'
      have t1 : Cells demoTab ⟨.w64, true⟩ 0 ⟨4096000, 5000⟩ (!anonShared .readWrite) cell1 cell1 _ :=
        .made
      have t2 := t1.write (idx := 4500) (b := 7) (w2 := cell2) (World.next!_eq (by decide +kernel))
      have h := fun j => C97_alloc (demo_wf 0) .start sane hx (j := j) (w := cell2)
        (c := fun j => if j = 4500 then 7 else 0) (by rw [hs]; exact t2)
      exact ⟨h 4500 (by decide), h 4501 (by decide)⟩

/-- The program of `C98_false`: it maps the demo file for reading, and then maps it once more, asking
to resize the file to 100 bytes. -/
def shortened : World :=
  ((World.start (demo 0)).next! (.mapIf Options.new 3)).next! (.mapIf (Options.new.setResize (.exact 100)) 3)

theorem shortened_map :
    FileMap demoTab ⟨.w64, true⟩ (demo 0) shortened 0 ⟨8192000, 10000⟩ 0 0 .readOnly := by
  have f1 : Fits ⟨.w64, true⟩ Options.new := ⟨trivial, trivial, by decide⟩
  have f2 : Fits ⟨.w64, true⟩ (Options.new.setResize (.exact 100)) :=
    ⟨show (100 : Nat) < _ by decide, trivial, by decide⟩
  obtain ⟨k1, a1, a2⟩ := next_map (w := World.start (demo 0)) (o := Options.new) (fd := 3)
    (m := ⟨8192000, 10000⟩) (by decide +kernel)
  refine .map (f := ⟨0, true, true⟩) .start f1 rfl a1 ?_ rfl
  rw [← a2]
  exact .step (op := .mapIf (Options.new.setResize (.exact 100)) 3) .refl f2
    (World.next!_eq (by decide +kernel)) trivial

/-- A program that resizes a file it has mapped can no longer read the map. -/
theorem C98_false : ¬ C98_full := by
  intro hall
  obtain ⟨b, hb⟩ := hall demoTab ⟨.w64, true⟩ (demo 0) shortened 0 ⟨8192000, 10000⟩ 0 0 .readOnly
    (demo_wf 0) shortened_map 5000 (by decide)
  have : (match (⟨8192000, 10000⟩ : MapMut).get shortened.k 5000 with
    | .ok _ => true
    | .error _ => false) = false := by decide +kernel
  rw [hb] at this
  cases this

/-- Non-vacuity of C98: in that program the bytes of the map's first page can still be read. -/
example : (⟨8192000, 10000⟩ : MapMut).get shortened.k 50 = .ok 50 ∧
    (⟨8192000, 10000⟩ : MapMut).get shortened.k 4000 = .ok 0 := by decide +kernel

end Vmap
