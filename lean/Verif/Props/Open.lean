import Verif.Proofs.Open
import Verif.Proofs.MapIfFrame
import Verif.Spec.Demo
/-
Property theorems C36, C52 and the file part of C74: `map`/`map_if`, `open`/`open_if`.
-/
namespace Vmap
open Kernel Spec

/-! ### C36 -/

/-- C36: `map` is `map_if` with `Ok(None)` turned into an `InvalidInput` error of operation
`MapFile`; the state afterwards is the same. -/
theorem C36_map (tab : SysTable) (t : Target) (k : Kernel) (o : Options) (fd : Nat) :
    (∀ k' m, o.mapIf tab t k fd = .ok (k', .ok (some m)) →
      o.map tab t k fd = .ok (k', .ok m)) ∧
    (∀ k' e, o.mapIf tab t k fd = .ok (k', .error e) →
      o.map tab t k fd = .ok (k', .error e)) ∧
    (∀ k', o.mapIf tab t k fd = .ok (k', .ok none) →
      ∃ e, o.map tab t k fd = .ok (k', .error e) ∧ e.kind tab = .invalidInput ∧
        e.operation = .mapFile ∧ e.rawOsError = none) ∧
    (∀ x, o.mapIf tab t k fd = .error x → o.map tab t k fd = .error x) := by
  refine ⟨?_, ?_, ?_, ?_⟩
  · intro k' m h; simp only [Options.map, h, bind, Except.bind]; rfl
  · intro k' e h; simp only [Options.map, h, bind, Except.bind]; rfl
  · intro k' h
    refine ⟨Error.input .mapFile .invalidRange, ?_, rfl, rfl, rfl⟩
    simp only [Options.map, h, bind, Except.bind]; rfl
  · intro x h; simp only [Options.map, h, bind, Except.bind]

/-- C36: `open` is `open_if` with `Ok(None)` turned into an `InvalidInput` error of operation
`MapFile` and the file closed. -/
theorem C36_open (tab : SysTable) (t : Target) (k : Kernel) (o : Options) (path : String) :
    (∀ k' m fd, o.openIf tab t k path = .ok (k', .ok (some m, fd)) →
      o.open_ tab t k path = .ok (k', .ok (m, fd))) ∧
    (∀ k' e, o.openIf tab t k path = .ok (k', .error e) →
      o.open_ tab t k path = .ok (k', .error e)) ∧
    (∀ k' fd, o.openIf tab t k path = .ok (k', .ok (none, fd)) →
      ∃ e, o.open_ tab t k path = .ok (k'.close fd, .error e) ∧ e.kind tab = .invalidInput ∧
        e.operation = .mapFile ∧ e.rawOsError = none) ∧
    (∀ x, o.openIf tab t k path = .error x → o.open_ tab t k path = .error x) := by
  generalize hx : o.openOptions.open tab k path = x
  obtain ⟨k1, r1⟩ := x
  cases r1 with
  | error e1 =>
    have h1 : o.openIf tab t k path = .ok (k1, .error (Options.mapFileErr e1)) := by
      simp only [Options.openIf, hx]; rfl
    have h2 : o.open_ tab t k path = .ok (k1, .error (Options.mapFileErr e1)) := by
      simp only [Options.open_, hx]; rfl
    rw [h1, h2]
    refine ⟨?_, ?_, ?_, ?_⟩
    · intro k' m fd h; injection h with h; injection h with _ h; cases h
    · intro k' e h; cases h; rfl
    · intro k' fd h; injection h with h; injection h with _ h; cases h
    · intro x h; cases h
  | ok fd1 =>
    obtain ⟨m1, m2, m3, m4⟩ := C36_map tab t k1 o fd1
    cases hm : o.mapIf tab t k1 fd1 with
    | error x =>
      have h1 : o.openIf tab t k path = .error x := by
        simp only [Options.openIf, hx, hm, bind, Except.bind]
      have h2 : o.open_ tab t k path = .error x := by
        simp only [Options.open_, hx, m4 x hm, bind, Except.bind]
      rw [h1, h2]
      refine ⟨?_, ?_, ?_, ?_⟩ <;> intros <;> rename_i h <;> cases h
      rfl
    | ok kr =>
      obtain ⟨k2, r2⟩ := kr
      cases r2 with
      | error e =>
        have h1 : o.openIf tab t k path = .ok (k2.close fd1, .error e) := by
          simp only [Options.openIf, hx, hm, bind, Except.bind]; rfl
        have h2 : o.open_ tab t k path = .ok (k2.close fd1, .error e) := by
          simp only [Options.open_, hx, m2 k2 e hm, bind, Except.bind]; rfl
        rw [h1, h2]
        refine ⟨?_, ?_, ?_, ?_⟩
        · intro k' m fd h; injection h with h; injection h with _ h; cases h
        · intro k' e h; cases h; rfl
        · intro k' fd h; injection h with h; injection h with _ h; cases h
        · intro x h; cases h
      | ok y =>
        have h1 : o.openIf tab t k path = .ok (k2, .ok (y, fd1)) := by
          simp only [Options.openIf, hx, hm, bind, Except.bind]; rfl
        cases y with
        | none =>
          obtain ⟨e, he, g⟩ := m3 k2 hm
          have h2 : o.open_ tab t k path = .ok (k2.close fd1, .error e) := by
            simp only [Options.open_, hx, he, bind, Except.bind]; rfl
          rw [h1, h2]
          refine ⟨?_, ?_, ?_, ?_⟩
          · intro k' m fd h; injection h with h; injection h with _ h; injection h with h; cases h
          · intro k' e h; injection h with h; injection h with _ h; cases h
          · intro k' fd h
            injection h with h; injection h with ha h; injection h with h; injection h with _ h
            subst ha h
            exact ⟨e, rfl, g⟩
          · intro x h; cases h
        | some m =>
          have h2 : o.open_ tab t k path = .ok (k2, .ok (m, fd1)) := by
            simp only [Options.open_, hx, m1 k2 m hm, bind, Except.bind]; rfl
          rw [h1, h2]
          refine ⟨?_, ?_, ?_, ?_⟩
          · intro k' m fd h
            injection h with h; injection h with ha h; injection h with h; injection h with h hb
            injection h with h
            subst ha h hb
            rfl
          · intro k' e h; injection h with h; injection h with _ h; cases h
          · intro k' fd h
            injection h with h; injection h with _ h; injection h with h; injection h with h _
            cases h
          · intro x h; cases h

/-- What opening leaves and hands out. -/
theorem OpenOutcome.handed {tab : SysTable} {k k' : Kernel} {o path r}
    (h : OpenOutcome tab k o path k' r) :
    k'.pt = k.pt ∧ k'.page = k.page ∧ (∀ e, r = .error e → k'.fds = k.fds) ∧
    (∀ fd, r = .ok fd → fd = k.nextFd ∧ ∃ x, k'.names path = some x ∧
      k'.fds = (fun d => if d = k.nextFd then some ⟨x, true, o.write⟩ else k.fds d)) := by
  cases h with
  | refused => exact ⟨rfl, rfl, fun _ _ => rfl, fun fd h => by cases h⟩
  | failed e => exact ⟨rfl, rfl, fun _ _ => rfl, fun fd h => by cases h⟩
  | existing _ x name new writable state others keep trunc =>
    refine ⟨by rw [state], by rw [state], (fun e h => by cases h), fun fd h => ?_⟩
    injection h with h
    exact ⟨h.symm, x, by rw [state]; exact name, by rw [state]⟩
  | created name asks write =>
    refine ⟨rfl, rfl, (fun e h => by cases h), fun fd h => ?_⟩
    injection h with h
    exact ⟨h.symm, k.fresh, if_pos rfl, rfl⟩

/-- C36, C74: `open_if` never panics; on success the returned `File` is a new descriptor of the
named file, opened for writing iff asked, and the map is what `map_if` makes of it; on
failure no descriptor stays open and nothing stays mapped. -/
theorem C36_C74_open_if (tab : SysTable) (t : Target) (k : Kernel) (w : Wf t k) (o : Options)
    (hfit : Fits t o) (path : String) :
    ∃ k' r, o.openIf tab t k path = .ok (k', r) ∧ Wf t k' ∧
      (∀ m fd, r = .ok (m, fd) → ∃ x k1, k'.names path = some x ∧ k.fds fd = none ∧
        k'.fds = (fun d => if d = fd then some ⟨x, true, o.openOptions.write⟩ else k.fds d) ∧
        k1.fds = k'.fds ∧ k1.names = k'.names ∧ o.mapIf tab t k1 fd = .ok (k', .ok m)) ∧
      (∀ e, r = .error e → k'.fds = k.fds ∧ k'.pt = k.pt) := by
  have ho := open_outcome tab k o.openOptions path
  generalize hx : o.openOptions.open tab k path = x at ho
  obtain ⟨k1, r1⟩ := x
  simp only at ho
  have w1 := ho.wf w
  obtain ⟨p1, p2, p3, p4⟩ := ho.handed
  cases r1 with
  | error e =>
    refine ⟨k1, .error (Options.mapFileErr e), by simp only [Options.openIf, hx]; rfl, w1, ?_, ?_⟩
    · intro m fd h; cases h
    · intro e' _; exact ⟨p3 e rfl, p1⟩
  | ok fd =>
    obtain ⟨q1, x, q2, q3⟩ := p4 fd rfl
    obtain ⟨k', r, h1, h2⟩ := mapIf_keeps tab w1 hfit (fd := fd)
    obtain ⟨wf', a, b, c, d, e, f, g, -, -, -⟩ := h2
    have hnone : k.fds k.nextFd = none := by
      cases h : k.fds k.nextFd with
      | none => rfl
      | some f => have := (w.fds _ f h).2; omega
    cases r with
    | error err =>
      refine ⟨k'.close fd, .error err, by simp only [Options.openIf, hx, h1, bind, Except.bind]; rfl,
        wf'.close fd, (fun m fd h => by cases h), ?_⟩
      intro e' _
      refine ⟨?_, ?_⟩
      · funext d
        show (if d = fd then none else k'.fds d) = _
        rw [a, q3, q1]
        dsimp only
        split
        · rename_i hd; rw [hd, hnone]
        · rfl
      · show k'.pt = _
        rw [g (fun m h => by cases h), p1]
    | ok m =>
      refine ⟨k', .ok (m, fd), by simp only [Options.openIf, hx, h1, bind, Except.bind]; rfl,
        wf', ?_, fun e' h => by cases h⟩
      intro m' fd' h
      injection h with h; injection h with ha hb
      subst ha hb
      exact ⟨x, k1, by rw [b]; exact q2, by rw [q1]; exact hnone, by rw [a, q3, q1], a.symm, b.symm,
        h1⟩

/-- C74: `map_if` that does not return a map leaves the address space and the descriptors as
they were. -/
theorem C74_map_if_leaves_nothing (tab : SysTable) (t : Target) (k : Kernel) (w : Wf t k)
    (o : Options) (hfit : Fits t o) (fd : Nat) :
    ∃ k' r, o.mapIf tab t k fd = .ok (k', r) ∧ k'.fds = k.fds ∧ Wf t k' ∧
      ((∀ m, r ≠ .ok (some m)) → k'.pt = k.pt) := by
  obtain ⟨k', r, h1, h2⟩ := mapIf_keeps tab w hfit (fd := fd)
  obtain ⟨wf', a, b, c, d, e, f, g, -, -, -⟩ := h2
  exact ⟨k', r, h1, a, wf', g⟩

/-- C74: `open` that does not return a map leaves the address space and the descriptors as they
were. -/
theorem C74_open_leaves_nothing (tab : SysTable) (t : Target) (k : Kernel) (w : Wf t k)
    (o : Options) (hfit : Fits t o) (path : String) :
    ∃ k' r, o.open_ tab t k path = .ok (k', r) ∧ Wf t k' ∧
      (∀ e, r = .error e → k'.fds = k.fds ∧ k'.pt = k.pt) := by
  obtain ⟨k', r, h1, wf, h2, h3⟩ := C36_C74_open_if tab t k w o hfit path
  obtain ⟨g1, g2, g3, -⟩ := C36_open tab t k o path
  cases r with
  | error e => exact ⟨k', .error e, g2 k' e h1, wf, fun e' h => h3 e rfl⟩
  | ok y =>
    obtain ⟨m, fd⟩ := y
    cases m with
    | some m => exact ⟨k', .ok (m, fd), g1 k' m fd h1, wf, fun e h => by cases h⟩
    | none =>
      obtain ⟨e, he, -⟩ := g3 k' fd h1
      refine ⟨k'.close fd, .error e, he, wf.close fd, fun e' _ => ?_⟩
      obtain ⟨x, k1, -, n1, n2, n3, -, n4⟩ := h2 none fd rfl
      have hpt : k'.pt = k.pt := by
        have ho := open_outcome tab k o.openOptions path
        generalize hx : o.openOptions.open tab k path = y at ho
        obtain ⟨k2, r2⟩ := y
        simp only at ho
        simp only [Options.openIf, hx] at h1
        cases r2 with
        | error e2 => injection h1 with h1; injection h1 with _ h1; cases h1
        | ok fd2 =>
          obtain ⟨k3, r3, h4, h5⟩ := mapIf_keeps tab (ho.wf w) hfit (fd := fd2)
          simp only [h4, bind, Except.bind] at h1
          cases r3 with
          | error e3 => injection h1 with h1; injection h1 with _ h1; cases h1
          | ok m3 =>
            injection h1 with h1
            injection h1 with ha h1
            injection h1 with h1
            injection h1 with h1 _
            subst ha
            rw [h5.pt (fun m h => by
              injection h with h; rw [h] at h1; cases h1), ho.handed.1]
      refine ⟨?_, hpt⟩
      funext d
      show (if d = fd then none else k'.fds d) = _
      rw [n2]
      dsimp only
      split
      · rename_i hd; rw [hd, n1]
      · rfl

/-- The hypotheses hold for the demo kernel. -/
example : Wf ⟨.w64, true⟩ (demo 0) ∧ Fits ⟨.w64, true⟩ Options.newMut :=
  ⟨demo_wf 0, ⟨trivial, trivial, by show 0 < 2 ^ 64; decide⟩⟩

/-! ### C52 -/

/-- The files named in `k` are the same in `k'`: names, lengths, contents. -/
structure SameFiles (k k' : Kernel) : Prop where
  names : k'.names = k.names
  files : ∀ n x, k.names n = some x → k'.size x = k.size x ∧ k'.data x = k.data x

/-- C52 for `open_if`:
* asking for creation or truncation without write access fails with the state unchanged;
* a file that is missing comes into being only with `create`/`create_new` and write access;
  otherwise opening it fails and no file changes;
* `create_new` on an existing file fails and changes no file;
* names are never removed or redirected, and no other file changes. -/
theorem C52_open_if (tab : SysTable) (t : Target) (k : Kernel) (w : Wf t k) (o : Options)
    (hfit : Fits t o) (path : String) :
    ∃ k' r, o.openIf tab t k path = .ok (k', r) ∧
      (o.openOptions.write = false →
        (o.openOptions.truncate = true ∨ o.openOptions.create = true ∨
          o.openOptions.createNew = true) →
        k' = k ∧ ∃ e, r = .error e) ∧
      (k.names path = none →
        (o.openOptions.write = false ∨
          (o.openOptions.create = false ∧ o.openOptions.createNew = false)) →
        SameFiles k k' ∧ ∃ e, r = .error e) ∧
      (o.openOptions.createNew = true → ∀ x, k.names path = some x →
        SameFiles k k' ∧ ∃ e, r = .error e) ∧
      (∀ n x, k.names n = some x → k'.names n = some x ∧
        (k.names path ≠ some x → k'.size x = k.size x ∧ k'.data x = k.data x)) ∧
      (∀ n, n ≠ path → k'.names n = k.names n) := by
  have ho := open_outcome tab k o.openOptions path
  generalize hx : o.openOptions.open tab k path = x at ho
  obtain ⟨k1, r1⟩ := x
  simp only at ho
  have w1 := ho.wf w
  cases r1 with
  | error e =>
    have same : SameFiles k k1 ∧ (o.openOptions.write = false →
        (o.openOptions.truncate = true ∨ o.openOptions.create = true ∨
          o.openOptions.createNew = true) → k1 = k) := by
      clear hx
      cases ho with
      | refused => exact ⟨⟨rfl, fun _ _ _ => ⟨rfl, rfl⟩⟩, fun _ _ => rfl⟩
      | failed e' writable =>
        refine ⟨⟨rfl, fun _ _ _ => ⟨rfl, rfl⟩⟩, fun h1 h2 => ?_⟩
        rw [writable h2] at h1; cases h1
    exact ⟨k1, _, by simp only [Options.openIf, hx]; rfl,
      fun h1 h2 => ⟨same.2 h1 h2, _, rfl⟩, fun _ _ => ⟨same.1, _, rfl⟩,
      fun _ _ _ => ⟨same.1, _, rfl⟩,
      fun n x h => ⟨by rw [same.1.names]; exact h, fun _ => same.1.files n x h⟩,
      fun n _ => by rw [same.1.names]⟩
  | ok fd =>
    obtain ⟨k', r, h1, h2⟩ := mapIf_keeps tab w1 hfit (fd := fd)
    obtain ⟨wf', a, b, c, d, e, f, g, i, -, -⟩ := h2
    have files : ∃ x, (∀ f, k1.fds fd = some f → f.obj = x) ∧
        (∀ n, n ≠ path → k1.names n = k.names n) ∧
        (∀ n y, k.names n = some y → k1.names n = some y ∧ (k.names path ≠ some y → y ≠ x ∧
          k1.size y = k.size y ∧ k1.data y = k.data y)) ∧
        (o.openOptions.truncate = true ∨ o.openOptions.create = true ∨
          o.openOptions.createNew = true → o.openOptions.write = true) ∧
        (k.names path = none → o.openOptions.write = true ∧
          (o.openOptions.create = true ∨ o.openOptions.createNew = true)) ∧
        (o.openOptions.createNew = true → k.names path = none) := by
      clear hx h1 i
      cases ho with
      | existing _ x name new writable state others keep trunc =>
        refine ⟨x, ?_, fun n _ => by rw [state], ?_, writable, ?_, ?_⟩
        · intro f hf
          rw [state] at hf; simp only [if_true] at hf; injection hf with hf; rw [← hf]
        · intro n y hn
          refine ⟨by rw [state]; exact hn, fun hne => ?_⟩
          have : y ≠ x := fun h => hne (by rw [h]; exact name)
          exact ⟨this, others y this⟩
        · intro h; rw [name] at h; cases h
        · intro h; rw [new] at h; cases h
      | created name asks write =>
        refine ⟨k.fresh, ?_, fun n hn => if_neg hn, ?_, fun _ => write, fun _ => ⟨write, asks⟩,
          fun _ => name⟩
        · intro f hf
          simp only [if_true] at hf; injection hf with hf; rw [← hf]
        · intro n y hn
          have hy := w.names n y hn
          refine ⟨?_, fun _ => ⟨by omega, if_neg (by omega), funext fun _ => if_neg (by omega)⟩⟩
          show (if n = path then some k.fresh else k.names n) = some y
          rw [if_neg (by intro h; rw [h, name] at hn; cases hn)]
          exact hn
    obtain ⟨x, f1, f2, f3, f4, f5, f6⟩ := files
    have rest : (∀ n y, k.names n = some y → k'.names n = some y ∧
        (k.names path ≠ some y → k'.size y = k.size y ∧ k'.data y = k.data y)) ∧
        (∀ n, n ≠ path → k'.names n = k.names n) := by
      refine ⟨fun n y hn => ⟨by rw [b]; exact (f3 n y hn).1, fun hne => ?_⟩, fun n hn => by
        rw [b]; exact f2 n hn⟩
      obtain ⟨g1, g2, g3⟩ := (f3 n y hn).2 hne
      obtain ⟨g4, g5⟩ := i y (fun f hf => by rw [f1 f hf]; exact g1)
      exact ⟨g4.trans g2, g5.trans g3⟩
    have absurd1 : o.openOptions.write = false →
        (o.openOptions.truncate = true ∨ o.openOptions.create = true ∨
          o.openOptions.createNew = true) → False := by
      intro h h'; rw [f4 h'] at h; cases h
    have absurd2 : k.names path = none → (o.openOptions.write = false ∨
          (o.openOptions.create = false ∧ o.openOptions.createNew = false)) → False := by
      intro h h'
      obtain ⟨g1, g2⟩ := f5 h
      rcases h' with h' | ⟨h', h''⟩
      · rw [g1] at h'; cases h'
      · rcases g2 with g | g
        · rw [g] at h'; cases h'
        · rw [g] at h''; cases h''
    have absurd3 : o.openOptions.createNew = true → ∀ x, k.names path = some x → False := by
      intro h x hx; rw [f6 h] at hx; cases hx
    cases r with
    | error err =>
      exact ⟨k'.close fd, .error err, by simp only [Options.openIf, hx, h1, bind, Except.bind]; rfl,
        fun p q => (absurd1 p q).elim, fun p q => (absurd2 p q).elim,
        fun p x q => (absurd3 p x q).elim, rest.1, rest.2⟩
    | ok m =>
      exact ⟨k', .ok (m, fd), by simp only [Options.openIf, hx, h1, bind, Except.bind]; rfl,
        fun p q => (absurd1 p q).elim, fun p q => (absurd2 p q).elim,
        fun p x q => (absurd3 p x q).elim, rest.1, rest.2⟩

/-- C52 for `open`: the same. -/
theorem C52_open (tab : SysTable) (t : Target) (k : Kernel) (w : Wf t k) (o : Options)
    (hfit : Fits t o) (path : String) :
    ∃ k' r, o.open_ tab t k path = .ok (k', r) ∧
      (o.openOptions.write = false →
        (o.openOptions.truncate = true ∨ o.openOptions.create = true ∨
          o.openOptions.createNew = true) →
        k' = k ∧ ∃ e, r = .error e) ∧
      (k.names path = none →
        (o.openOptions.write = false ∨
          (o.openOptions.create = false ∧ o.openOptions.createNew = false)) →
        SameFiles k k' ∧ ∃ e, r = .error e) ∧
      (o.openOptions.createNew = true → ∀ x, k.names path = some x →
        SameFiles k k' ∧ ∃ e, r = .error e) ∧
      (∀ n x, k.names n = some x → k'.names n = some x ∧
        (k.names path ≠ some x → k'.size x = k.size x ∧ k'.data x = k.data x)) ∧
      (∀ n, n ≠ path → k'.names n = k.names n) := by
  obtain ⟨k', r, h1, a, b, c, d, e⟩ := C52_open_if tab t k w o hfit path
  obtain ⟨g1, g2, g3, -⟩ := C36_open tab t k o path
  cases r with
  | error err =>
    exact ⟨k', _, g2 k' err h1, fun p q => ⟨(a p q).1, _, rfl⟩, fun p q => ⟨(b p q).1, _, rfl⟩,
      fun p x q => ⟨(c p x q).1, _, rfl⟩, d, e⟩
  | ok y =>
    obtain ⟨m, fd⟩ := y
    have a' : o.openOptions.write = false →
        (o.openOptions.truncate = true ∨ o.openOptions.create = true ∨
          o.openOptions.createNew = true) → False :=
      fun p q => by obtain ⟨_, _, h⟩ := a p q; cases h
    have b' : k.names path = none → (o.openOptions.write = false ∨
          (o.openOptions.create = false ∧ o.openOptions.createNew = false)) → False :=
      fun p q => by obtain ⟨_, _, h⟩ := b p q; cases h
    have c' : o.openOptions.createNew = true → ∀ x, k.names path = some x → False :=
      fun p x q => by obtain ⟨_, _, h⟩ := c p x q; cases h
    cases m with
    | some m =>
      exact ⟨k', _, g1 k' m fd h1, fun p q => (a' p q).elim, fun p q => (b' p q).elim,
        fun p x q => (c' p x q).elim, d, e⟩
    | none =>
      obtain ⟨err, he, -⟩ := g3 k' fd h1
      exact ⟨k'.close fd, _, he, fun p q => (a' p q).elim, fun p q => (b' p q).elim,
        fun p x q => (c' p x q).elim, d, e⟩

/-- The four situations C52 distinguishes all occur. -/
example : (demo 0).names "data" = some 0 ∧ (demo 0).names "other" = none ∧
    (Options.new.create true).openOptions.write = false ∧
    (Options.newMut.createNew true).openOptions.createNew = true ∧
    Options.newMut.openOptions.create = false :=
  ⟨by simp [demo], by simp [demo], rfl, rfl, rfl⟩

end Vmap
