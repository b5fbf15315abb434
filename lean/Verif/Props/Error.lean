import Verif.Spec.Error
/-
Property theorems C68 and C69: what an `Error` says, and its conversion to `io::Error`.
-/
namespace Vmap
open Spec

/-! ### C68 -/

/-- Every error has an origin, so that the theorems below speak about all of them. -/
theorem C68_every_error (e : Error) : ∃ g : Origin, g.error = e := by
  obtain ⟨r, op⟩ := e
  cases r with
  | io e => exact ⟨.io op e, rfl⟩
  | input i => exact ⟨.input op i, rfl⟩
  | system s =>
    cases s with
    | os c => exact ⟨.lastOs op c, rfl⟩
    | kernel c => exact ⟨.kernel op c, rfl⟩

/-- C68: kind, OS code and operation are those the error was made with, and the `io::Error` it
converts to has the same kind and the same OS code. -/
theorem C68_to_io (tab : SysTable) (g : Origin) :
    g.error.kind tab = g.kind tab ∧ (g.error.toIo tab).kind = g.error.kind tab ∧
    g.error.rawOsError = g.code ∧ (g.error.toIo tab).os = g.error.rawOsError ∧
    g.error.operation = g.op := by
  cases g <;> exact ⟨rfl, rfl, rfl, rfl, rfl⟩

/-- C68: an `io::Error` survives the conversion to `Error` and back, whether through `From` or
through `Error::io`; it is also the error's source. -/
theorem C68_round_trip (tab : SysTable) (op : Operation) (e : IoError) :
    (Error.ofIo e).toIo tab = e ∧ (Error.io op e).toIo tab = e ∧
    (Error.ofIo e).source = some e ∧ (Error.io op e).source = some e ∧
    (Error.ofIo e).operation = .none :=
  ⟨rfl, rfl, rfl, rfl, rfl⟩

/-- C68: input errors are `InvalidInput`, carry no OS code, and say so. -/
theorem C68_input (tab : SysTable) (op : Operation) (i : Input) :
    (Error.input op i).kind tab = .invalidInput ∧
    (Error.input op i).toIo tab = ⟨.invalidInput, none, "invalid range"⟩ ∧
    (Error.input op i).source = none := by
  cases i
  exact ⟨rfl, rfl, rfl⟩

/-- C68: no OS code is reported exactly for input errors, kernel return codes, and `io::Error`s that
carry none. -/
theorem C68_no_code (g : Origin) : g.error.rawOsError = none ↔
    (∃ op i, g = .input op i) ∨ (∃ op c, g = .kernel op c) ∨
    (∃ op e, g = .io op e ∧ e.os = none) ∨ (∃ e, g = .fromIo e ∧ e.os = none) := by
  rw [(C68_to_io ⟨fun _ => .other 0, fun _ => ""⟩ g).2.2.1]
  cases g with
  | io op e =>
    refine ⟨fun h => .inr (.inr (.inl ⟨op, e, rfl, h⟩)), fun h => ?_⟩
    rcases h with ⟨_, _, h⟩ | ⟨_, _, h⟩ | ⟨_, _, h, h'⟩ | ⟨_, h, _⟩ <;> cases h
    exact h'
  | input op i => exact ⟨fun _ => .inl ⟨op, i, rfl⟩, fun _ => rfl⟩
  | lastOs op c =>
    refine ⟨fun h => by (cases h), fun h => ?_⟩
    rcases h with ⟨_, _, h⟩ | ⟨_, _, h⟩ | ⟨_, _, h, _⟩ | ⟨_, h, _⟩ <;> cases h
  | kernel op c => exact ⟨fun _ => .inr (.inl ⟨op, c, rfl⟩), fun _ => rfl⟩
  | fromIo e =>
    refine ⟨fun h => .inr (.inr (.inr ⟨e, rfl, h⟩)), fun h => ?_⟩
    rcases h with ⟨_, _, h⟩ | ⟨_, _, h⟩ | ⟨_, _, h, _⟩ | ⟨_, h, h'⟩ <;> cases h
    exact h'

/-- C68: `?` on a failed conversion keeps the error and gives up the map. -/
theorem C68_convert {F : Type} (e : Error) (f : F) : Error.ofConvert (e, f) = e := rfl

/-- Non-vacuity: the error of a failed `flush` with `EIO`, seen as an `io::Error`. -/
example : (Error.lastOsError .flush 5).rawOsError = some 5 ∧
    ((Error.lastOsError .flush 5).toIo ⟨fun _ => .other 0, fun _ => "I/O error"⟩).os = some 5 ∧
    (Error.kernel .ringEntry 3).rawOsError = none := ⟨rfl, rfl, rfl⟩

/-! ### C69 -/

/-- C69: the text of an error is `failed to <operation>, <cause>`, or just the cause if it names no
operation. -/
theorem C69_display (tab : SysTable) (g : Origin) :
    (∀ name, g.op.asStr = some name →
      g.error.display tab = "failed to " ++ name ++ ", " ++ g.cause tab) ∧
    (g.op = .none → g.error.display tab = g.cause tab) := by
  refine ⟨fun name h => ?_, fun h => ?_⟩
  · cases g with
    | input op i => cases i; simp only [Origin.op] at h; simp only [Origin.error, Error.input, Error.display, h]; rfl
    | fromIo e => cases h
    | _ => simp only [Origin.op] at h; simp only [Origin.error, Error.io, Error.lastOsError, Error.kernel,
        Error.system, Error.display, h]; rfl
  · cases g with
    | input op i => cases i; cases h; rfl
    | fromIo e => rfl
    | _ => cases h; rfl

/-- C69: every operation but `None` has a name, and no two have the same. -/
theorem C69_names (a b : Operation) :
    (a.asStr = none ↔ a = .none) ∧ (a.asStr = b.asStr → a = b) := by
  refine ⟨?_, ?_⟩
  · cases a <;> simp [Operation.asStr]
  · cases a <;> cases b <;> simp [Operation.asStr]

/-- The names contain no comma. -/
theorem asStr_no_comma (op : Operation) (name : String) (h : op.asStr = some name) :
    ',' ∉ name.toList := by
  cases op <;> simp only [Operation.asStr, Option.some.injEq, reduceCtorEq] at h <;> subst h <;> decide

theorem split_comma : ∀ {a b x y : List Char}, ',' ∉ a → ',' ∉ b → a ++ ',' :: x = b ++ ',' :: y →
    a = b ∧ x = y
  | [], [], x, y, _, _, h => by simp at h; exact ⟨rfl, h⟩
  | [], c :: b, x, y, _, hb, h => by simp at h; simp [← h.1] at hb
  | c :: a, [], x, y, ha, _, h => by simp at h; simp [h.1] at ha
  | c :: a, d :: b, x, y, ha, hb, h => by
    simp at h ha hb
    obtain ⟨h1, h2⟩ := h
    obtain ⟨h3, h4⟩ := split_comma ha.2 hb.2 h2
    exact ⟨by rw [h1, h3], h4⟩

/-- C69: the text determines the operation and the cause: two errors that name an operation and
display alike name the same one. -/
theorem C69_unambiguous (tab : SysTable) (g g' : Origin) (h1 : g.op ≠ .none) (h2 : g'.op ≠ .none)
    (h : g.error.display tab = g'.error.display tab) : g.op = g'.op ∧ g.cause tab = g'.cause tab := by
  have name : ∀ op : Operation, op ≠ .none → ∃ s, op.asStr = some s := by
    intro op hop
    cases hs : op.asStr with
    | none => exact absurd ((C69_names op op).1.mp hs) hop
    | some s => exact ⟨s, rfl⟩
  obtain ⟨s, hs⟩ := name _ h1
  obtain ⟨s', hs'⟩ := name _ h2
  rw [(C69_display tab g).1 s hs, (C69_display tab g').1 s' hs'] at h
  have h := congrArg String.toList h
  simp only [String.toList_append, List.append_assoc] at h
  have h := List.append_cancel_left h
  have hc : ", ".toList = [',', ' '] := by decide
  rw [hc] at h
  obtain ⟨e1, e2⟩ := split_comma (asStr_no_comma _ _ hs) (asStr_no_comma _ _ hs') h
  refine ⟨?_, ?_⟩
  · apply (C69_names g.op g'.op).2
    rw [hs, hs', String.toList_inj.mp e1]
  · have := List.append_cancel_left (as := [' ']) e2
    exact String.toList_inj.mp this

/-- Non-vacuity, with the example of the documentation. -/
example (tab : SysTable) : (Error.input .mapFile .invalidRange).display tab =
    "failed to map file, invalid range" := rfl

end Vmap
