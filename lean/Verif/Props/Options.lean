import Verif.Proofs.MapIfFrame
import Verif.Spec.Builder
import Verif.Spec.Demo
/-
Property theorems C32, C34, C35, C36, C51, C74: deciding what to map (`Options`).

`tab` is what the C library knows about errno values; `fd` is the `&File`; `f` the open file
it refers to.  Every theorem is for all kernels, in particular for every oracle: every system
call may fail with any errno, and the kernel chooses any free address.
-/
namespace Vmap
open Kernel Spec

/-! ### C32 -/

/-- C32, for files shorter than the address space: `map_if` never panics; it returns `Ok(None)`
exactly when the range lies outside the (truncated, resized) file, unless asking for or
setting the length failed; in range it returns a map of the wanted length unless a system
call failed.  Missing: files of 4 GiB or more on 32-bit targets, see `C32_false_32bit`. -/
theorem C32_map_if_decision_partial (tab : SysTable) (t : Target) (k : Kernel) (w : Wf t k)
    (o : Options) (hfit : Fits t o) (fd : Nat) (f : Fd) (hf : k.fds fd = some f)
    (hsize : k.size f.obj < t.lim) :
    ∃ k' r l, o.mapIf tab t k fd = .ok (k', r) ∧ k'.log = l ++ k.log ∧
      (¬ InRange (newLen o.truncate o.resize (k.size f.obj)) o.offset o.len →
        r = .ok none ∨ ∃ e, r = .error e ∧ LengthError tab l o.resize e) ∧
      (InRange (newLen o.truncate o.resize (k.size f.obj)) o.offset o.len →
        (∃ m, r = .ok (some m) ∧
          m.len = wanted (newLen o.truncate o.resize (k.size f.obj)) o.offset o.len) ∨
        (∃ e, r = .error e ∧ LengthError tab l o.resize e) ∨
        (∃ c errno rest, r = .error ⟨.system (.os errno), .mapFile⟩ ∧
          l = ⟨c, .error errno⟩ :: rest ∧ ∃ n p fl off, c = .mmap 0 n p fl (some fd) off)) := by
  obtain ⟨k', r, h1, h2⟩ := mapIf_outcome tab w hfit (fd := fd) (fun f' h' => by
    rw [hf] at h'; injection h' with h'; rw [← h']; exact hsize)
  refine ⟨k', r, ?_⟩
  cases h2 with
  | lenErr _ e l log calls err bad good =>
    exact ⟨l, h1, log, fun _ => .inr ⟨e, rfl, err⟩, fun _ => .inr (.inl ⟨e, rfl, err⟩)⟩
  | outside f' _ l fd_eq out only resized log calls quiet =>
    rw [hf] at fd_eq; injection fd_eq with fd_eq; subst fd_eq
    exact ⟨l, h1, log, fun _ => .inl rfl, fun h => absurd h out⟩
  | mapErr f' _ l e fd_eq inr only resized log calls quiet =>
    rw [hf] at fd_eq; injection fd_eq with fd_eq; subst fd_eq
    exact ⟨_ :: l, h1, log, fun h => absurd inr h,
      fun _ => .inr (.inr ⟨_, e, l, rfl, rfl, _, _, _, _, rfl⟩)⟩
  | mapped f' k1 _ l p n m fd_eq inr canRead canWrite only wf resized len created log calls quiet
      rest =>
    rw [hf] at fd_eq; injection fd_eq with fd_eq; subst fd_eq
    exact ⟨_ :: l, h1, log, fun h => absurd inr h, fun _ => .inl ⟨m, rfl, len⟩⟩

/-- The full statement of C32: as above for every file. -/
def C32_full : Prop :=
  ∀ (tab : SysTable) (t : Target) (k : Kernel), Wf t k → ∀ (o : Options), Fits t o →
    ∀ (fd : Nat) (f : Fd), k.fds fd = some f →
    ∀ k', o.mapIf tab t k fd = .ok (k', .ok none) →
      ¬ InRange (newLen o.truncate o.resize (k.size f.obj)) o.offset o.len

/-- A file of 4 GiB and 100 bytes. -/
def bigFile : Kernel := { demo 0 with size := fun _ => 2 ^ 32 + 100 }

theorem bigFile_wf {t : Target} : Wf t bigFile :=
  (demo_wf 0).sub rfl (fun _ _ h => h) (fun _ _ h => h) (fun _ _ h => h) (Nat.le_refl _)
    (Nat.le_refl _)

/-- C32 is false on 32-bit targets: the length of a 4 GiB + 100 byte file is read as 100, so
offset 200 is reported to lie outside the file. -/
theorem C32_false_32bit : ¬ C32_full := by
  intro h
  let tab : SysTable := ⟨fun _ => .other 0, fun _ => ""⟩
  let o := Options.new.setOffset 200
  have h1 : o.mapIf tab ⟨.w32, false⟩ bigFile 4 =
      .ok ((bigFile.fstatLen 4).1, .ok none) := by
    rcases fstat_cases bigFile 4 with ⟨e, he⟩ | ⟨f, hf, he⟩
    · exact absurd (congrArg (fun x => x.2) he) (by
        rw [show (bigFile.fstatLen 4).2 = .ok (2 ^ 32 + 100) from rfl]; simp)
    · have : f.obj = 0 := by
        have : bigFile.fds 4 = some ⟨0, true, false⟩ := rfl
        rw [this] at hf; injection hf with hf; rw [← hf]
      simp only [Options.mapIf, File.len, ioErr, he]
      simp only [show bigFile.size f.obj = 2 ^ 32 + 100 from rfl]
      rfl
  exact h tab ⟨.w32, false⟩ bigFile bigFile_wf o
    ⟨trivial, trivial, by decide⟩ 4 ⟨0, true, false⟩ rfl _ h1
    (by show 200 ≤ 2 ^ 32 + 100; omega)

/-- An in-range and an out-of-range request on the demo file. -/
example : Wf ⟨.w64, true⟩ (demo 0) ∧
    ∃ (o : Options) (f : Fd), Fits ⟨.w64, true⟩ o ∧ (demo 0).fds 3 = some f ∧
    InRange (newLen o.truncate o.resize ((demo 0).size f.obj)) o.offset o.len ∧
    ¬ InRange (newLen o.truncate o.resize ((demo 0).size f.obj)) o.offset (.exact 6000) ∧
    wanted (newLen o.truncate o.resize ((demo 0).size f.obj)) o.offset o.len = 100 := by
  refine ⟨demo_wf 0, ?_⟩
  refine ⟨(Options.new.setOffset 5000).setLen (.exact 100), ⟨0, true, true⟩, ⟨trivial, ?_, ?_⟩,
    rfl, ?_, ?_, rfl⟩
  · show 100 < 2 ^ 64; decide
  · show 5000 < 2 ^ 64; decide
  · show 5000 + 100 ≤ 10000; decide
  · show ¬ 5000 + 6000 ≤ 10000; decide

/-! ### C34 -/

/-- C34: of the system calls `map_if` makes, every `mmap` has a page-aligned file offset at most
the requested offset and less than a page below it, ends exactly at the requested end, maps
the given file, and leaves the address to the kernel. -/
theorem C34_aligned_offset (tab : SysTable) (t : Target) (k : Kernel) (w : Wf t k)
    (o : Options) (hfit : Fits t o) (fd : Nat) :
    ∃ k' r l, o.mapIf tab t k fd = .ok (k', r) ∧ k'.log = l ++ k.log ∧
      ∀ ev, ev ∈ l → ∀ addr n prot fl d off, ev.call = .mmap addr n prot fl d off →
        k.page ∣ off ∧ off ≤ o.offset ∧ o.offset < off + k.page ∧
        (∀ m, r = .ok (some m) → off + n = o.offset + m.len) ∧
        (∀ x, o.len = .exact x → off + n = o.offset + x) ∧
        (∀ x, o.len = .min x → o.offset + x ≤ off + n) ∧
        (∀ x, o.len = .max x → off + n ≤ o.offset + x) ∧
        d = some fd ∧ fl.fixed = false ∧ fl.anon = false := by
  obtain ⟨k', r, h1, h2⟩ := mapIf_keeps tab w hfit (fd := fd)
  obtain ⟨l, hl, hcalls⟩ := h2.log
  refine ⟨k', r, l, h1, hl, ?_⟩
  intro ev hev addr n prot fl d off hc
  rcases hcalls ev hev with (h | ⟨n, h⟩) | ⟨flen, hin, h, hlen⟩
  · rw [h] at hc; cases hc
  · rw [h] at hc; cases hc
  · rw [h] at hc
    simp only [mapCall] at hc
    injection hc with _ hn _ hfl hd hoff
    have hdm := Nat.div_add_mod o.offset k.page
    rw [Nat.mul_comm] at hdm
    have hm := Nat.mod_lt o.offset w.page_pos
    obtain ⟨-, -, b1, b2⟩ := mapFileBits_eq o.protect
    subst hn hfl hd hoff
    refine ⟨Nat.dvd_mul_left _ _, by omega, by omega, ?_, ?_, ?_, ?_, rfl, b1, b2⟩
    · intro m hm; rw [hlen m hm]; omega
    · intro x hx; simp only [hx, wanted]; omega
    · intro x hx
      rw [hx] at hin
      have hin : o.offset + x ≤ flen := hin
      simp only [hx, wanted]; omega
    · intro x hx
      have e : Nat.min x (flen - o.offset) = min x (flen - o.offset) := rfl
      simp only [hx, wanted, e]; omega

/-- The request of the demo that maps file bytes 5000 to 5100 is made with offset 4096 and
length 1004. -/
example : mapCall (demo 0) ((Options.new.setOffset 5000).setLen (.exact 100)) 3 10000 =
    .mmap 0 1004 ⟨true, false, false⟩ { shared := true } (some 3) 4096 := by decide

/-! ### C35 -/

/-- C35, for files shorter than the address space: unless asking for or setting the length
failed, the file afterwards has the length the options ask for, kept bytes are unchanged and
new bytes are zero — whether or not the mapping succeeds; nothing else in the file system
changes; and if the length is already right (and `resize` is not `Exact`), the only call
about the file is asking for its length.  If a length call failed, the file is unchanged or
was truncated as asked.  Missing: files of 4 GiB or more on 32-bit targets, see
`C35_false_32bit`. -/
theorem C35_resize_partial (tab : SysTable) (t : Target) (k : Kernel) (w : Wf t k)
    (o : Options) (hfit : Fits t o) (fd : Nat) (f : Fd) (hf : k.fds fd = some f)
    (hsize : k.size f.obj < t.lim) :
    ∃ k' r l, o.mapIf tab t k fd = .ok (k', r) ∧ k'.log = l ++ k.log ∧
      ((∃ e, r = .error e ∧ LengthError tab l o.resize e ∧
          (Resized k k' f.obj (k.size f.obj) (k.size f.obj) ∨
            (o.truncate = true ∧ k'.size f.obj = 0))) ∨
        (Resized k k' f.obj (if o.truncate then 0 else k.size f.obj)
          (newLen o.truncate o.resize (k.size f.obj)) ∧
         ((o.truncate = false ∨ k.size f.obj = 0) → (∀ n, o.resize ≠ .exact n) →
            newLen o.truncate o.resize (k.size f.obj) = k.size f.obj →
            ∀ ev, ev ∈ l → ∀ n, ev.call ≠ .ftruncate fd n))) ∧
      (∀ o', o' ≠ f.obj → k'.size o' = k.size o' ∧ k'.data o' = k.data o') ∧
      k'.names = k.names ∧ k'.fds = k.fds ∧ k'.disk = k.disk := by
  obtain ⟨k', r, h1, h2⟩ := mapIf_outcome tab w hfit (fd := fd) (fun f' h' => by
    rw [hf] at h'; injection h' with h'; rw [← h']; exact hsize)
  refine ⟨k', r, ?_⟩
  cases h2 with
  | lenErr _ e l log calls err bad good =>
    obtain ⟨g1, g2⟩ := good f hf
    exact ⟨l, h1, log, .inl ⟨e, rfl, err, g2⟩, fun o' h => ⟨g1.size o' h, g1.data o' h⟩, g1.names,
      g1.fds, g1.disk⟩
  | outside f' _ l fd_eq out only resized log calls quiet =>
    rw [hf] at fd_eq; injection fd_eq with fd_eq; subst fd_eq
    refine ⟨l, h1, log, .inr ⟨resized, ?_⟩, fun o' h => ⟨only.size o' h, only.data o' h⟩,
      only.names, only.fds, only.disk⟩
    intro a b c ev hev n hc
    rw [quiet a b c] at hev
    rw [List.mem_singleton.mp hev] at hc; cases hc
  | mapErr f' _ l e fd_eq inr only resized log calls quiet =>
    rw [hf] at fd_eq; injection fd_eq with fd_eq; subst fd_eq
    refine ⟨_ :: l, h1, log, .inr ⟨resized, ?_⟩, fun o' h => ⟨only.size o' h, only.data o' h⟩,
      only.names, only.fds, only.disk⟩
    intro a b c ev hev n hc
    rw [quiet a b c] at hev
    rcases List.mem_cons.mp hev with h | h
    · rw [h] at hc; cases hc
    · rw [List.mem_singleton.mp h] at hc; cases hc
  | mapped f' k1 _ l p n m fd_eq inr canRead canWrite only wf resized len created log calls quiet
      rest =>
    rw [hf] at fd_eq; injection fd_eq with fd_eq; subst fd_eq
    have e1 : k'.size = k1.size := by rw [rest]
    have e2 : k'.data = k1.data := by rw [rest]
    refine ⟨_ :: l, h1, log, .inr ⟨⟨by rw [e1]; exact resized.size, by rw [e2]; exact resized.kept,
      by rw [e2]; exact resized.zero⟩, ?_⟩, fun o' h => ⟨by rw [e1]; exact only.size o' h,
      by rw [e2]; exact only.data o' h⟩, by rw [rest]; exact only.names,
      by rw [rest]; exact only.fds, by rw [rest]; exact only.disk⟩
    intro a b c ev hev n hc
    rw [quiet a b c] at hev
    rcases List.mem_cons.mp hev with h | h
    · rw [h] at hc; cases hc
    · rw [List.mem_singleton.mp h] at hc; cases hc

/-- The part of C35 that `C35_false_32bit` refutes: `Min(n)` never makes a file shorter. -/
def C35_min_grows : Prop :=
  ∀ (tab : SysTable) (t : Target) (k : Kernel), Wf t k → ∀ (o : Options), Fits t o →
    ∀ (fd n : Nat) (f : Fd), k.fds fd = some f → o.truncate = false → o.resize = .min n →
    ∀ k' r, o.mapIf tab t k fd = .ok (k', r) → k.size f.obj ≤ k'.size f.obj

/-- C35 is false on 32-bit targets: `resize(Min(200))` cuts a file of 4 GiB + 100 bytes down to
200 bytes. -/
theorem C35_false_32bit : ¬ C35_min_grows := by
  intro h
  let tab : SysTable := ⟨fun _ => .other 0, fun _ => ""⟩
  let o := (Options.new.setResize (.min 200)).setOffset 1000
  obtain ⟨k0, hk0⟩ : ∃ k0, k0 = (bigFile.fstatLen 3).1 := ⟨_, rfl⟩
  obtain ⟨k1, hk1⟩ : ∃ k1, k1 = (k0.ftruncate64 3 200).1 := ⟨_, rfl⟩
  have h1 : o.mapIf tab ⟨.w32, false⟩ bigFile 3 = .ok (k1, .ok none) := by
    have e1 : bigFile.fstatLen 3 = (k0, .ok (2 ^ 32 + 100)) := by rw [hk0]; rfl
    have e2 : (k0.ftruncate64 3 200) = (k1, .ok ()) := by rw [hk1, hk0]; rfl
    have e3 : Options.resizeFile tab k0 3 200 = (k1, .ok 200) := by
      have : asU64 200 = 200 := rfl
      simp only [Options.resizeFile, File.setLen, this]
      rw [if_neg (by decide)]
      simp only [ioErr, e2]
    have e4 : asUsize ⟨.w32, false⟩ (2 ^ 32 + 100) = 100 := rfl
    simp only [Options.mapIf, File.len, ioErr, e1, e4]
    have e5 : Options.truncateStep tab k0 o 3 100 =
      (k0, .ok 100) := rfl
    rw [e5]
    have e6 : Options.resizeStep tab k0 o 3 100 = (k1, .ok 200) := by
      have : o.resize = .min 200 := rfl
      simp only [Options.resizeStep, this]
      rw [if_pos (by decide)]; exact e3
    simp only [e6]
    rfl
  have h2 := h tab ⟨.w32, false⟩ bigFile bigFile_wf o
    ⟨by show 200 < 2 ^ 32; decide, trivial, by show 1000 < 2 ^ 32; decide⟩ 3 200
    ⟨0, true, true⟩ rfl rfl rfl k1 _ h1
  have h3 : k1.size 0 = 200 := by rw [hk1, hk0]; rfl
  have h2 : bigFile.size 0 ≤ k1.size 0 := h2
  rw [h3] at h2
  exact absurd h2 (by decide)

/-- Growing the demo file with `Min(20000)`: the hypotheses hold and the length changes. -/
example : Wf ⟨.w64, true⟩ (demo 0) ∧
    ∃ (o : Options) (f : Fd), Fits ⟨.w64, true⟩ o ∧ (demo 0).fds 3 = some f ∧
    (demo 0).size f.obj < (⟨.w64, true⟩ : Target).lim ∧
    newLen o.truncate o.resize ((demo 0).size f.obj) = 20000 := by
  refine ⟨demo_wf 0, ?_⟩
  refine ⟨Options.newMut.setResize (.min 20000), ⟨0, true, true⟩, ⟨?_, trivial, ?_⟩, rfl, ?_, rfl⟩
  · show 20000 < 2 ^ 64; decide
  · show 0 < 2 ^ 64; decide
  · show 10000 < 2 ^ 64; decide

/-! ### C51 -/

/-- A builder call changes only its own option. -/
theorem field_last {α : Type} (g : Options → α) (f : Setting → Option α)
    (h : ∀ o c, g (Setting.apply o c) = (f c).getD (g o)) :
    ∀ (l : List Setting) (o : Options), g (o.build l) = (last f l).getD (g o)
  | [], o => rfl
  | c :: l, o => by
    show g ((Setting.apply o c).build l) = _
    rw [field_last g f h l, h]
    simp only [last]
    cases last f l <;> rfl

/-- C51: after any sequence of builder calls, every option has the value of the last call for it,
or its value before; `write()`/`copy()` share one option (access), which decides protection
and whether files are opened for writing. -/
theorem C51_last_wins (o : Options) (l : List Setting) :
    (o.build l).offset = (last offsets l).getD o.offset ∧
    (o.build l).len = (last lens l).getD o.len ∧
    (o.build l).resize = (last resizes l).getD o.resize ∧
    (o.build l).truncate = (last truncates l).getD o.truncate ∧
    (o.build l).openOptions.truncate = (last truncates l).getD o.openOptions.truncate ∧
    (o.build l).openOptions.create = (last creates l).getD o.openOptions.create ∧
    (o.build l).openOptions.createNew = (last createsNew l).getD o.openOptions.createNew ∧
    (o.build l).openOptions.read = o.openOptions.read ∧
    (o.build l).openOptions.write = (last access l).getD o.openOptions.write ∧
    (o.build l).protect =
      ((last access l).map (fun w => if w then .readWrite else .readCopy)).getD o.protect := by
  refine ⟨field_last _ offsets ?_ l o, field_last _ lens ?_ l o, field_last _ resizes ?_ l o,
    field_last _ truncates ?_ l o, field_last (·.openOptions.truncate) truncates ?_ l o,
    field_last (·.openOptions.create) creates ?_ l o,
    field_last (·.openOptions.createNew) createsNew ?_ l o, ?_,
    field_last (·.openOptions.write) access ?_ l o, ?_⟩
  · intro o c; cases c <;> rfl
  · intro o c; cases c <;> rfl
  · intro o c; cases c <;> rfl
  · intro o c; cases c <;> rfl
  · intro o c; cases c <;> rfl
  · intro o c; cases c <;> rfl
  · intro o c; cases c <;> rfl
  · have := field_last (·.openOptions.read) (fun _ => none) (fun o c => by cases c <;> rfl) l o
    have hn : last (fun _ => (none : Option Bool)) l = none := by
      clear this; induction l with
      | nil => rfl
      | cons c l ih => simp [last, ih]
    rw [hn] at this; exact this
  · intro o c; cases c <;> rfl
  · have := field_last (·.protect)
      (fun c => (access c).map (fun w => if w then Protect.readWrite else .readCopy))
      (fun o c => by cases c <;> rfl) l o
    rw [this]
    congr 1
    clear this
    induction l with
    | nil => rfl
    | cons c l ih =>
      simp only [last, ih]
      cases last access l <;> rfl

/-- C51: the order of calls to different options does not matter: two sequences in which every
option was last given the same value build the same options, which then behave the same in
every call. -/
theorem C51_order (o : Options) (l l' : List Setting)
    (h1 : last offsets l = last offsets l') (h2 : last lens l = last lens l')
    (h3 : last resizes l = last resizes l') (h4 : last truncates l = last truncates l')
    (h5 : last creates l = last creates l') (h6 : last createsNew l = last createsNew l')
    (h7 : last access l = last access l') : o.build l = o.build l' := by
  obtain ⟨a1, a2, a3, a4, a5, a6, a7, a8, a9, a10⟩ := C51_last_wins o l
  obtain ⟨b1, b2, b3, b4, b5, b6, b7, b8, b9, b10⟩ := C51_last_wins o l'
  rw [h1, ← b1] at a1
  rw [h2, ← b2] at a2
  rw [h3, ← b3] at a3
  rw [h4, ← b4] at a4
  rw [h4, ← b5] at a5
  rw [h5, ← b6] at a6
  rw [h6, ← b7] at a7
  rw [← b8] at a8
  rw [h7, ← b9] at a9
  rw [h7, ← b10] at a10
  generalize o.build l = x at *
  generalize o.build l' = y at *
  obtain ⟨⟨_, _, _, _, _⟩, _, _, _, _, _⟩ := x
  obtain ⟨⟨_, _, _, _, _⟩, _, _, _, _, _⟩ := y
  simp only at *
  subst a1 a2 a3 a4 a5 a6 a7 a8 a9 a10
  rfl

/-- C51: what `Map::with_options()` and `MapMut::with_options()` start from. -/
theorem C51_defaults :
    Options.new = ⟨⟨true, false, false, false, false⟩, .endOf, .endOf, 0, .readOnly, false⟩ ∧
    Options.newMut = ⟨⟨true, true, false, false, false⟩, .endOf, .endOf, 0, .readWrite, false⟩ :=
  ⟨rfl, rfl⟩

/-- Two different sequences that agree on every option. -/
example : Options.new.build [.write, .offset 3, .copy, .len (.exact 9), .offset 7] =
    Options.new.build [.offset 7, .copy, .len (.min 1), .len (.exact 9)] :=
  C51_order _ _ _ rfl rfl rfl rfl rfl rfl rfl

end Vmap
