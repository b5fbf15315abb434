import Verif.Model.Text
import Verif.Props.Error
import Verif.Props.Ring
import Verif.Props.MapMake
import Verif.Proofs.RingView
import Std.Data.String.ToNat
/-
Property theorems C101–C103: the texts of errors and maps, and `raw_os_error`.
-/
namespace Vmap
open Kernel Spec

theorem split_char {c : Char} : ∀ {a b x y : List Char}, c ∉ a → c ∉ b → a ++ c :: x = b ++ c :: y →
    a = b ∧ x = y
  | [], [], x, y, _, _, h => by simp at h; exact ⟨rfl, h⟩
  | [], d :: b, x, y, _, hb, h => by simp at h; simp [← h.1] at hb
  | d :: a, [], x, y, ha, _, h => by simp at h; simp [h.1] at ha
  | d :: a, e :: b, x, y, ha, hb, h => by
    simp at h ha hb
    obtain ⟨h1, h2⟩ := h
    obtain ⟨h3, h4⟩ := split_char ha.2 hb.2 h2
    exact ⟨by rw [h1, h3], h4⟩

theorem op_debug_no_comma (op : Operation) : ',' ∉ op.debug.toList := by
  cases op <;> decide

theorem op_debug_inj (a b : Operation) (h : a.debug = b.debug) : a = b := by
  cases a <;> cases b <;> first | rfl | simp [Operation.debug] at h

/-! ### C101 -/

/-- The text of the cause of an error in its `Debug` output, and the name it is given there. -/
def Spec.Origin.debugCause (d : DebugTable) : Origin → String × String
  | .io _ e => ("io", d.io e)
  | .input _ .invalidRange => ("input", "InvalidRange")
  | .lastOs _ code => ("system", d.sys (.os code))
  | .kernel _ code => ("system", d.sys (.kernel code))
  | .fromIo e => ("io", d.io e)

/-- C101: `{:?}` of an error shows the operation, the kind and the cause. -/
theorem C101_debug (tab : SysTable) (d : DebugTable) (g : Origin) :
    g.error.debug tab d = "Error { op: " ++ g.op.debug ++ ", kind: " ++ d.kind (g.kind tab) ++ ", " ++
      (g.debugCause d).1 ++ ": " ++ (g.debugCause d).2 ++ " }" := by
  apply String.toList_inj.mp
  cases g with
  | input op i => cases i; simp [Error.debug, Origin.error, Error.input, debugStruct, debugFields,
      Origin.op, Origin.kind, Origin.debugCause, Error.kind, Input.debug]
  | _ => simp [Error.debug, Origin.error, Error.io, Error.ofIo, Error.lastOsError, Error.kernel,
      Error.system, debugStruct, debugFields, Origin.op, Origin.kind, Origin.debugCause, Error.kind]

/-- C101: two errors that print alike with `{:?}` have the same operation, kind and cause (if std's
names of the kinds are distinct words). -/
theorem C101_unambiguous (tab : SysTable) (d : DebugTable) (hn : ∀ x, ',' ∉ (d.kind x).toList)
    (hi : ∀ x y, d.kind x = d.kind y → x = y) (g g' : Origin)
    (h : g.error.debug tab d = g'.error.debug tab d) :
    g.op = g'.op ∧ g.kind tab = g'.kind tab ∧ g.debugCause d = g'.debugCause d := by
  rw [C101_debug, C101_debug] at h
  have h := congrArg String.toList h
  have c1 : ", kind: ".toList = ',' :: " kind: ".toList := by decide
  have c2 : ", ".toList = ',' :: " ".toList := by decide
  have c3 : ": ".toList = ':' :: " ".toList := by decide
  simp only [String.toList_append, List.append_assoc] at h
  have h := List.append_cancel_left h
  rw [c1] at h
  obtain ⟨e1, h⟩ := split_char (op_debug_no_comma _) (op_debug_no_comma _) h
  have h := List.append_cancel_left h
  rw [c2] at h
  obtain ⟨e2, h⟩ := split_char (hn _) (hn _) h
  have h := List.append_cancel_left h
  rw [c3] at h
  have nc : ∀ g : Origin, ':' ∉ (g.debugCause d).1.toList := by
    intro g
    cases g with
    | input op i => cases i; simp only [Origin.debugCause]; decide
    | _ => simp only [Origin.debugCause]; decide
  obtain ⟨e3, h⟩ := split_char (nc _) (nc _) h
  have h := List.append_cancel_left h
  have h := List.append_cancel_right h
  refine ⟨op_debug_inj _ _ (String.toList_inj.mp e1), hi _ _ (String.toList_inj.mp e2),
    Prod.ext (String.toList_inj.mp e3) (String.toList_inj.mp h)⟩

/-- C101: `{}` of an operation or an input error is the fragment that the text of an error (C69)
contains; an error prints `failed to {op}, {cause}`. -/
theorem C101_display (tab : SysTable) (op : Operation) (i : Input) (hop : op ≠ .none) :
    (Error.input op i).display tab = "failed to " ++ op.display ++ ", " ++ i.display ∧
    Operation.none.display = "" := by
  refine ⟨?_, rfl⟩
  obtain ⟨s, hs⟩ : ∃ s, op.asStr = some s := by
    cases h : op.asStr with
    | none => exact absurd ((C69_names op op).1.mp h) hop
    | some s => exact ⟨s, rfl⟩
  simp only [Error.input, Error.display, Operation.display, Input.display, hs, Option.getD_some]

theorem digitChar_inj {a b : Nat} (ha : a < 16) (hb : b < 16) (h : a.digitChar = b.digitChar) :
    a = b := by
  have key : ∀ a, a < 16 → ∀ b, b < 16 → a.digitChar = b.digitChar → a = b := by decide
  exact key a ha b hb h

theorem toDigits16_inj : ∀ {a b : Nat}, Nat.toDigits 16 a = Nat.toDigits 16 b → a = b := by
  intro a
  induction a using Nat.strongRecOn with
  | _ a ih =>
    intro b h
    rw [Nat.toDigits_eq_if (b := 16) (n := a) (by omega),
      Nat.toDigits_eq_if (b := 16) (n := b) (by omega)] at h
    by_cases ha : a < 16 <;> by_cases hb : b < 16
    · rw [if_pos ha, if_pos hb] at h
      exact digitChar_inj ha hb (by simpa using h)
    · rw [if_pos ha, if_neg hb] at h
      have hl := congrArg List.length h
      have := Nat.length_toDigits_pos (b := 16) (n := b / 16)
      rw [List.length_append, List.length_singleton, List.length_singleton] at hl; omega
    · rw [if_neg ha, if_pos hb] at h
      have hl := congrArg List.length h
      have := Nat.length_toDigits_pos (b := 16) (n := a / 16)
      rw [List.length_append, List.length_singleton, List.length_singleton] at hl; omega
    · rw [if_neg ha, if_neg hb] at h
      obtain ⟨h1, h2⟩ := List.append_inj' h rfl
      have e1 := ih (a / 16) (by omega) h1
      have e2 := digitChar_inj (Nat.mod_lt a (by omega)) (Nat.mod_lt b (by omega)) (by simpa using h2)
      omega

theorem toDigits16_no_comma : ∀ (n : Nat), ',' ∉ Nat.toDigits 16 n := by
  intro n
  induction n using Nat.strongRecOn with
  | _ n ih =>
    have hd : ∀ m, m < 16 → ',' ≠ m.digitChar := by decide
    rw [Nat.toDigits_eq_if (by omega)]
    by_cases hn : n < 16
    · rw [if_pos hn]
      intro h
      exact hd n hn (List.mem_singleton.mp h)
    · rw [if_neg hn]
      intro h
      rcases List.mem_append.mp h with h | h
      · exact ih (n / 16) (by omega) h
      · exact hd (n % 16) (Nat.mod_lt _ (by omega)) (List.mem_singleton.mp h)

theorem debug_map_inj {name : String} {p l p' l' : Nat}
    (h : debugStruct name [("ptr", debugPtr p), ("len", l.repr)] =
      debugStruct name [("ptr", debugPtr p'), ("len", l'.repr)]) : p = p' ∧ l = l' := by
  have h := congrArg String.toList h
  simp only [debugStruct, debugFields, debugPtr, String.toList_append, List.append_assoc,
    String.toList_ofList] at h
  have c2 : ", ".toList = ',' :: " ".toList := by decide
  have h := List.append_cancel_left (List.append_cancel_left (List.append_cancel_left
    (List.append_cancel_left (List.append_cancel_left h))))
  rw [c2] at h
  obtain ⟨e1, h⟩ := split_char (toDigits16_no_comma _) (toDigits16_no_comma _) h
  have h := List.append_cancel_left (List.append_cancel_left (List.append_cancel_left h))
  have h := List.append_cancel_right h
  exact ⟨toDigits16_inj e1, Nat.repr_injective (String.toList_inj.mp h)⟩

/-- C101: `{:?}` of a map tells its address and length. -/
theorem C101_map (m m' : MapMut) :
    (m.debug = m'.debug → m = m') ∧ ((Map.mk m).debug = (Map.mk m').debug → m = m') := by
  constructor <;>
  · intro h
    obtain ⟨h1, h2⟩ := debug_map_inj h
    cases m; cases m'
    simp only at h1 h2
    rw [h1, h2]

/-- Non-vacuity, with an error of the documentation and a map of 16 bytes at address 4096. -/
example (tab : SysTable) (d : DebugTable) (h : d.kind .invalidInput = "InvalidInput") :
    (Error.input .mapFile .invalidRange).debug tab d =
      "Error { op: MapFile, kind: InvalidInput, input: InvalidRange }" ∧
    (Map.mk ⟨4096, 16⟩).debug = "Map { ptr: 0x1000, len: 16 }" := by
  constructor
  · simp only [Error.debug, Error.input, Error.kind, h]; decide
  · decide

/-! ### C102 -/

/-- C102 in full: `{:?}` of the `WriterPanicked` that `into_parts` returns tells how many bytes are
still unwritten (as std's does).  False of the code: `C102_false`. -/
def C102_full : Prop :=
  ∀ (t : Target) (k : Kernel) (r : Ring) (n : Nat), RingAt t k r n → ∀ q, r.fillBuf t k = .ok q →
    (WriterPanicked.mk r).debug t =
      .ok ("WriterPanicked { buffer: " ++ q.length.repr ++ "/" ++
        (SeqWrite.writeCapacity r).repr ++ " }")

/-- C102, exactly: it tells how much room is left in the buffer; the bytes still unwritten are the rest
of the capacity. -/
theorem C102_exact (t : Target) (k : Kernel) (r : Ring) (n : Nat) (h : RingAt t k r n) :
    ∃ q room, r.fillBuf t k = .ok q ∧ q.length + room = SeqWrite.writeCapacity r ∧
      (WriterPanicked.mk r).debug t = .ok ("WriterPanicked { buffer: " ++ room.repr ++ "/" ++
        (SeqWrite.writeCapacity r).repr ++ " }") := by
  obtain ⟨q, sp, v⟩ := h.view
  obtain ⟨o, hv⟩ := v.rep
  refine ⟨q, sp.length, v.fillBuf, ?_, ?_⟩
  · have := hv.len_eq
    simp only [SeqWrite.writeCapacity] at this ⊢; omega
  · simp only [WriterPanicked.debug, hv.writeLen_eq, bind, Except.bind, pure, Except.pure,
      debugStruct, debugFields]
    congr 1

/-- C102 is false: for an empty buffer it gives the capacity as the first number. -/
theorem C102_false : ¬ C102_full := by
  intro hall
  obtain ⟨k, r, hr⟩ : ∃ k r, Ring.new ⟨.w64, true⟩ (demo 0) 5000 = .ok (k, .ok r) := ⟨_, _, rfl⟩
  have h := RingAt.new (demo_wf 0) (by simp [Target.lim, Width.bits]) hr
  obtain ⟨hm, hl0, hw⟩ := C15_C25_ring_new _ _ _ (demo_wf 0) _ (by simp [Target.lim, Width.bits]) r hr
  have hcap := hm.capacity.2.1
  obtain ⟨q, room, e1, e2, e3⟩ := C102_exact _ _ _ _ h
  obtain ⟨o, s, h1, -⟩ := h.inv
  rw [h1.fillBuf_eq] at e1
  injection e1 with e1
  have hq := h1.readLen_eq
  rw [hl0] at hq
  injection hq with hq
  have h1 := hall _ _ _ _ h q (by rw [← e1]; exact h1.fillBuf_eq)
  rw [h1] at e3
  injection e3 with e3
  have e3 := congrArg String.toList e3
  simp only [String.toList_append, List.append_assoc] at e3
  have e3 := List.append_cancel_left e3
  have e3 := List.append_cancel_right e3
  have e4 := Nat.repr_injective (String.toList_inj.mp e3)
  rw [← e1] at e4 e2
  simp only [SeqWrite.writeCapacity] at e2
  omega

/-- C102 where it is true: if the buffer is exactly half full. -/
theorem C102_partial (t : Target) (k : Kernel) (r : Ring) (n : Nat) (h : RingAt t k r n)
    (q : List Byte) (hq : r.fillBuf t k = .ok q) (half : 2 * q.length = SeqWrite.writeCapacity r) :
    (WriterPanicked.mk r).debug t =
      .ok ("WriterPanicked { buffer: " ++ q.length.repr ++ "/" ++
        (SeqWrite.writeCapacity r).repr ++ " }") := by
  obtain ⟨q', room, e1, e2, e3⟩ := C102_exact _ _ _ _ h
  rw [hq] at e1
  injection e1 with e1
  subst e1
  have : room = q.length := by omega
  rw [e3, this]

/-- C102: its other accessors: the ring of `into_parts` is inside, and its text is fixed. -/
theorem C102_ring {σ : Type} (b : BufWriter σ) :
    (b.panicked = true → ∃ x, b.ringOrPanicked = .error x ∧ x.intoInner = b.buf ∧
      x.display = "writer panicked, unwritten data may remain") ∧
    (b.panicked = false → b.ringOrPanicked = .ok b.buf) := by
  refine ⟨fun h => ⟨⟨b.buf⟩, ?_, rfl, rfl⟩, fun h => ?_⟩
  · simp only [BufWriter.ringOrPanicked, h, if_true]
  · simp only [BufWriter.ringOrPanicked, h, Bool.false_eq_true, if_false]

/-- Non-vacuity: a ring that meets the hypothesis of `C102_exact`. -/
example : ∃ k r n, RingAt ⟨.w64, true⟩ k r n ∧ r.fillBuf ⟨.w64, true⟩ k = .ok [1, 2, 3] := by
  obtain ⟨k, r, h, hq⟩ := demo_ringAt
  exact ⟨k, r, 3, h, hq⟩

/-! ### C103 -/

/-- C103 in full, as documented: `raw_os_error` is `Some` for errors constructed via
`last_os_error`, otherwise `None`.  False of the code: `C103_false`. -/
def C103_full : Prop :=
  ∀ g : Origin, g.error.rawOsError.isSome = true ↔ ∃ op code, g = .lastOs op code

/-- C103 is false: opening a file that does not exist gives an error that was made from an
`io::Error`, and its `raw_os_error` is `ENOENT`. -/
theorem C103_false : ¬ C103_full := by
  intro h
  obtain ⟨_, _, h'⟩ := (h (.io .mapFile ⟨.notFound, some 2, ""⟩)).mp rfl
  cases h'

/-- The error of `C103_false` is one that `open_if` returns. -/
theorem C103_open (tab : SysTable) :
    ∃ k', Options.new.openIf tab ⟨.w64, true⟩ (demo 0) "missing" =
      .ok (k', .error (Origin.error (.io .mapFile ⟨tab.kindOf (.os 2), some 2, tab.msgOf (.os 2)⟩))) :=
  ⟨_, rfl⟩

/-- C103, exactly: it is `Some` for errors constructed via `last_os_error` and for those made from an
`io::Error` that carries an OS error code, and `None` otherwise. -/
theorem C103_exact (g : Origin) (code : Nat) : g.error.rawOsError = some code ↔
    (∃ op, g = .lastOs op code) ∨ (∃ op e, g = .io op e ∧ e.os = some code) ∨
    (∃ e, g = .fromIo e ∧ e.os = some code) := by
  cases g with
  | io op e =>
    refine ⟨fun h => .inr (.inl ⟨op, e, rfl, h⟩), fun h => ?_⟩
    rcases h with ⟨_, h⟩ | ⟨_, _, h, h'⟩ | ⟨_, h, _⟩ <;> cases h
    exact h'
  | input op i =>
    refine ⟨fun h => (by cases h), fun h => ?_⟩
    rcases h with ⟨_, h⟩ | ⟨_, _, h, h'⟩ | ⟨_, h, _⟩ <;> cases h
  | lastOs op c =>
    refine ⟨fun h => .inl ⟨op, ?_⟩, fun h => ?_⟩
    · injection h with h; rw [h]
    · rcases h with ⟨_, h⟩ | ⟨_, _, h, h'⟩ | ⟨_, h, _⟩ <;> cases h
      rfl
  | kernel op c =>
    refine ⟨fun h => (by cases h), fun h => ?_⟩
    rcases h with ⟨_, h⟩ | ⟨_, _, h, h'⟩ | ⟨_, h, _⟩ <;> cases h
  | fromIo e =>
    refine ⟨fun h => .inr (.inr ⟨e, rfl, h⟩), fun h => ?_⟩
    rcases h with ⟨_, h⟩ | ⟨_, _, h, _⟩ | ⟨_, h, h'⟩ <;> cases h
    exact h'

/-- C103 for errors not made from an `io::Error`. -/
theorem C103_partial (g : Origin) (h : ∀ op e, g ≠ .io op e ∧ g ≠ .fromIo e) :
    g.error.rawOsError.isSome = true ↔ ∃ op code, g = .lastOs op code := by
  cases g with
  | io op e => exact absurd rfl (h op e).1
  | fromIo e => exact absurd rfl (h .none e).2
  | lastOs op c => exact ⟨fun _ => ⟨op, c, rfl⟩, fun _ => rfl⟩
  | input op i => exact ⟨fun h => (by cases h), fun ⟨_, _, h⟩ => (by cases h)⟩
  | kernel op c => exact ⟨fun h => (by cases h), fun ⟨_, _, h⟩ => (by cases h)⟩

/-- Non-vacuity: an error of a failed `mmap`, one of an invalid range, and one made from an
`io::Error`. -/
example : (Error.lastOsError .mapFile 12).rawOsError = some 12 ∧
    (Error.input .mapFile .invalidRange).rawOsError = none ∧
    (Error.ofIo ⟨.notFound, some 2, ""⟩).rawOsError = some 2 ∧
    (∀ op e, Origin.lastOs .mapFile 12 ≠ .io op e ∧ Origin.lastOs .mapFile 12 ≠ .fromIo e) :=
  ⟨rfl, rfl, rfl, fun _ _ => ⟨fun h => (by cases h), fun h => (by cases h)⟩⟩

end Vmap
