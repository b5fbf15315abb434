import Verif.Spec.Calls
import Verif.Proofs.WorldStep
import Verif.Proofs.BufWorld
/- Helper lemmas: the system calls each function makes. -/
namespace Vmap
open Kernel Spec

theorem Spec.Did.refl (k : Kernel) : Did k k [] := rfl

theorem Spec.Did.trans {a b c : Kernel} {es fs : List Event} (h : Did a b es) (h' : Did b c fs) :
    Did a c (es ++ fs) := by
  unfold Did at *
  rw [h', h, List.reverse_append, List.append_assoc]

theorem Spec.Did.one {k k' : Kernel} {e : Event} (h : k'.log = e :: k.log) : Did k k' [e] := h

theorem Spec.AllOk.append {es fs : List Event} (h : AllOk es) (h' : AllOk fs) : AllOk (es ++ fs) := by
  intro e he
  rcases List.mem_append.mp he with he | he
  · exact h e he
  · exact h' e he

theorem Spec.AllOk.nil : AllOk [] := fun _ h => by cases h

theorem Spec.AllOk.one {c : Call} {v : Nat} : AllOk [⟨c, .ok v⟩] := by
  intro e he
  rw [List.mem_singleton.mp he]
  exact ⟨v, rfl⟩

theorem Spec.AllOk.stops {es : List Event} (h : AllOk es) : StopsAtFailure es :=
  fun e he => h e (List.dropLast_subset es he)

theorem Spec.AllOk.stops_one {es : List Event} (h : AllOk es) (e : Event) : StopsAtFailure (es ++ [e]) := by
  unfold StopsAtFailure
  rw [List.dropLast_concat]
  exact h

/-- A recorded call: the event and what it tells. -/
theorem record_did {α : Type} {k : Kernel} {c : Call} {val : α → Nat} {x : Sys α}
    (h : x.1.log = k.log) : Did k (record c val x).1 [⟨c, x.2.map val⟩] ∧ (record c val x).2 = x.2 := by
  refine ⟨Did.one ?_, rfl⟩
  show _ :: x.1.log = _
  rw [h]

section
variable {t : Target} {k : Kernel}

theorem mmapCore_log (addr len : Nat) (prot : Prot) (flags : MapFlags) (fd : Option Nat) (off : Nat) :
    (mmapCore t k addr len prot flags fd off).1.log = k.log := by
  unfold mmapCore mmapAt
  dsimp only
  repeat' split
  all_goals rfl

theorem munmapCore_log (addr len : Nat) : (munmapCore k addr len).1.log = k.log := by
  unfold munmapCore
  dsimp only
  split <;> rfl

theorem fstatLenCore_log (fd : Nat) : (fstatLenCore k fd).1.log = k.log := by
  unfold fstatLenCore
  dsimp only
  repeat' split
  all_goals rfl

theorem ftruncateCore_log (fd len : Nat) : (ftruncateCore t k fd len).1.log = k.log := by
  unfold ftruncateCore
  dsimp only
  repeat' split
  all_goals rfl

theorem ftruncate64Core_log (fd len : Nat) : (ftruncate64Core k fd len).1.log = k.log := by
  unfold ftruncate64Core
  dsimp only
  repeat' split
  all_goals rfl

theorem openCore_log (path : String) (a b c d : Bool) : (openCore k path a b c d).1.log = k.log := by
  unfold openCore
  dsimp only
  repeat' split
  all_goals rfl

/-- `mmap`: its event. -/
theorem mmap_did (addr len : Nat) (prot : Prot) (flags : MapFlags) (fd : Option Nat) (off : Nat) :
    Did k (k.mmap t addr len prot flags fd off).1
      [⟨.mmap addr len prot flags fd off, (k.mmap t addr len prot flags fd off).2.map id⟩] :=
  (record_did (mmapCore_log _ _ _ _ _ _)).1

theorem munmap_did (addr len : Nat) :
    Did k (k.munmap addr len).1 [⟨.munmap addr len, (k.munmap addr len).2.map (fun _ => 0)⟩] :=
  (record_did (munmapCore_log _ _)).1

/-- A file's length: one call; its event tells whether it succeeded. -/
theorem fileLen_did (tab : SysTable) (fd : Nat) {k' : Kernel} {r : IoResult Nat}
    (h : File.len tab k fd = (k', r)) :
    (∃ e x, r = .error x ∧ Did k k' [⟨.fstat fd, .error e⟩]) ∨
    (∃ n, r = .ok n ∧ Did k k' [⟨.fstat fd, .ok n⟩]) := by
  unfold File.len ioErr at h
  have d := (record_did (c := .fstat fd) (val := id) (fstatLenCore_log (k := k) fd)).1
  have hd : record (.fstat fd) id (fstatLenCore k fd) = k.fstatLen fd := rfl
  rw [hd] at d
  have h2 : (fstatLenCore k fd).2 = (k.fstatLen fd).2 := rfl
  rw [h2] at d
  rcases hx : k.fstatLen fd with ⟨k1, e | n⟩
  · rw [hx] at h d
    injection h with h3 h4
    subst h3
    exact .inl ⟨e, _, h4.symm, d⟩
  · rw [hx] at h d
    injection h with h3 h4
    subst h3
    exact .inr ⟨n, h4.symm, d⟩

/-- Setting a file's length: one call, or none if the length is none. -/
theorem resizeFile_did (tab : SysTable) {fd sz : Nat} (hs : sz < lim64) {k' : Kernel}
    {r : Result Nat} (h : Options.resizeFile tab k fd sz = (k', r)) :
    (∃ x, r = .error x ∧ Did k k' []) ∨
    (∃ e x, r = .error x ∧ Did k k' [⟨.ftruncate fd sz, .error e⟩]) ∨
    (∃ n, r = .ok n ∧ Did k k' [⟨.ftruncate fd sz, .ok 0⟩]) := by
  have ha : asU64 sz = sz := Nat.mod_eq_of_lt hs
  unfold Options.resizeFile File.setLen at h
  rw [ha] at h
  by_cases hb : lim64 / 2 ≤ sz
  · rw [if_pos hb] at h
    injection h with h1 h2
    subst h1
    exact .inl ⟨_, h2.symm, Did.refl k⟩
  · rw [if_neg hb] at h
    have d := (record_did (c := .ftruncate fd sz) (val := fun _ : Unit => 0)
      (ftruncate64Core_log (k := k) fd sz)).1
    have hd : record (.ftruncate fd sz) (fun _ => 0) (ftruncate64Core k fd sz) = k.ftruncate64 fd sz :=
      rfl
    have h2 : (ftruncate64Core k fd sz).2 = (k.ftruncate64 fd sz).2 := rfl
    rw [hd, h2] at d
    unfold ioErr at h
    rcases hx : k.ftruncate64 fd sz with ⟨k1, e | n⟩
    · rw [hx] at h d
      injection h with h3 h4
      subst h3
      exact .inr (.inl ⟨e, _, h4.symm, d⟩)
    · rw [hx] at h d
      injection h with h3 h4
      subst h3
      exact .inr (.inr ⟨_, h4.symm, d⟩)

/-- How far a stage of a function got, with calls of the form `P`. -/
inductive Stage {α : Type} (k k' : Kernel) (P : List Call → Prop) : Result α → Prop
  | failed {x : Error} {es : List Event} (did : Did k k' es) (form : P (calls es))
      (stops : StopsAtFailure es) : Stage k k' P (.error x)
  | passed {a : α} {es : List Event} (did : Did k k' es) (form : P (calls es))
      (good : AllOk es) : Stage k k' P (.ok a)

theorem Spec.StopsAtFailure.after {es fs : List Event} (h : AllOk es) (h' : StopsAtFailure fs) :
    StopsAtFailure (es ++ fs) := by
  cases fs with
  | nil => rw [List.append_nil]; exact h.stops
  | cons f fs =>
    unfold StopsAtFailure
    rw [List.dropLast_append_of_ne_nil (by simp)]
    exact h.append h'

theorem Spec.StopsAtFailure.single (e : Event) : StopsAtFailure [e] := AllOk.nil
theorem Spec.StopsAtFailure.nil : StopsAtFailure [] := AllOk.nil

theorem truncateStep_did (tab : SysTable) (o : Options) (fd flen : Nat) {k' : Kernel} {r : Result Nat}
    (h : Options.truncateStep tab k o fd flen = (k', r)) :
    Stage k k' (fun tr => tr = [] ∨ o.truncate = true ∧ tr = [.ftruncate fd 0]) r := by
  unfold Options.truncateStep at h
  split at h
  · rename_i hc
    have ht : o.truncate = true := by
      simp only [Bool.and_eq_true] at hc; exact hc.1
    rcases resizeFile_did tab (by decide) h with ⟨x, rfl, d⟩ | ⟨e, x, rfl, d⟩ | ⟨n, rfl, d⟩
    · exact .failed d (.inl rfl) .nil
    · exact .failed d (.inr ⟨ht, rfl⟩) (.single _)
    · exact .passed d (.inr ⟨ht, rfl⟩) .one
  · injection h with h1 h2
    subst h1 h2
    exact .passed (Did.refl k) (.inl rfl) .nil

theorem resizeStep_did (tab : SysTable) (o : Options) (fits : Fits t o) (fd flen : Nat) {k' : Kernel}
    {r : Result Nat} (h : Options.resizeStep tab k o fd flen = (k', r)) :
    Stage k k' (fun rs => rs = [] ∨ ∃ n, (o.resize = .exact n ∨ o.resize = .min n ∨
      o.resize = .max n) ∧ rs = [.ftruncate fd n]) r := by
  have key : ∀ n, n < lim64 → (o.resize = .exact n ∨ o.resize = .min n ∨ o.resize = .max n) →
      Options.resizeFile tab k fd n = (k', r) →
      Stage k k' (fun rs => rs = [] ∨ ∃ n, (o.resize = .exact n ∨ o.resize = .min n ∨
        o.resize = .max n) ∧ rs = [.ftruncate fd n]) r := by
    intro n hn ho h
    rcases resizeFile_did tab hn h with ⟨x, rfl, d⟩ | ⟨e, x, rfl, d⟩ | ⟨n', rfl, d⟩
    · exact .failed d (.inl rfl) .nil
    · exact .failed d (.inr ⟨n, ho, rfl⟩) (.single _)
    · exact .passed d (.inr ⟨n, ho, rfl⟩) .one
  have stay : ∀ {m : Nat}, (k, Except.ok m) = (k', r) →
      Stage k k' (fun rs => rs = [] ∨ ∃ n, (o.resize = .exact n ∨ o.resize = .min n ∨
        o.resize = .max n) ∧ rs = [.ftruncate fd n]) r := by
    intro m h
    injection h with h1 h2
    subst h1 h2
    exact .passed (Did.refl k) (.inl rfl) .nil
  unfold Options.resizeStep at h
  have hl : t.lim ≤ lim64 := lim_le_lim64 t
  have hf := fits.resize
  obtain ⟨x, hr⟩ : ∃ x, o.resize = x := ⟨_, rfl⟩
  cases x with
  | exact n => rw [hr] at h hf; exact key n (Nat.lt_of_lt_of_le hf hl) (.inl hr) h
  | min n =>
    rw [hr] at h hf
    dsimp only at h
    split at h
    · exact key n (Nat.lt_of_lt_of_le hf hl) (.inr (.inl hr)) h
    · exact stay h
  | max n =>
    rw [hr] at h hf
    dsimp only at h
    split at h
    · exact key n (Nat.lt_of_lt_of_le hf hl) (.inr (.inr hr)) h
    · exact stay h
  | endOf => rw [hr] at h; exact stay h

theorem mapFile_did (fd off len : Nat) (prot : Protect) {k' : Kernel} {r : Result Nat}
    (h : Unix.mapFile t k fd off len prot = (k', r)) :
    Stage k k' (fun mp => ∃ c, PlainMmap (some fd) c ∧ mp = [c]) r := by
  unfold Unix.mapFile at h
  dsimp only at h
  have d := mmap_did (t := t) (k := k) 0 len (Unix.mapFileBits prot).1 (Unix.mapFileBits prot).2
    (some fd) off
  have hfix : (Unix.mapFileBits prot).2.fixed = false := by cases prot <;> rfl
  rcases hx : k.mmap t 0 len (Unix.mapFileBits prot).1 (Unix.mapFileBits prot).2 (some fd) off with
    ⟨k1, e | p⟩
  · rw [hx] at h d
    injection h with h1 h2
    subst h1 h2
    exact .failed d ⟨_, ⟨_, _, _, _, hfix, rfl⟩, rfl⟩ (.single _)
  · rw [hx] at h d
    injection h with h1 h2
    subst h1 h2
    exact .passed d ⟨_, ⟨_, _, _, _, hfix, rfl⟩, rfl⟩ .one

theorem mapStep_did (o : Options) (fd flen : Nat) {k' : Kernel} {r : Result (Option MapMut)}
    (h : Options.mapStep t k o fd flen = .ok (k', r)) :
    (r = .ok none ∧ Did k k' []) ∨
    (∃ c v, PlainMmap (some fd) c ∧ Did k k' [⟨c, v⟩] ∧ (∀ m, r = .ok (some m) → ∃ p, v = .ok p)) := by
  unfold Options.mapStep at h
  by_cases hlt : flen < o.offset
  · simp only [if_pos hlt, pure, Except.pure] at h
    injection h with h
    injection h with h1 h2
    subst h1 h2
    exact .inl ⟨rfl, Did.refl k⟩
  · simp only [if_neg hlt, bind, Except.bind] at h
    cases hs : subU t flen o.offset with
    | error e => rw [hs] at h; cases h
    | ok max =>
      rw [hs] at h
      dsimp only at h
      cases hm : Options.mapLen o.len max with
      | none =>
        rw [hm] at h
        injection h with h
        injection h with h1 h2
        subst h1 h2
        exact .inl ⟨rfl, Did.refl k⟩
      | some len =>
        rw [hm] at h
        dsimp only at h
        cases h1 : (Size.alloc k).truncate t o.offset with
        | error e => rw [h1] at h; cases h
        | ok mapoff =>
          rw [h1] at h
          dsimp only at h
          cases h2 : subU t o.offset mapoff with
          | error e => rw [h2] at h; cases h
          | ok d =>
            rw [h2] at h
            dsimp only at h
            cases h3 : addU t len d with
            | error e => rw [h3] at h; cases h
            | ok maplen =>
              rw [h3] at h
              dsimp only at h
              have st := fun {k'} {r} => mapFile_did (t := t) (k := k) fd mapoff maplen o.protect (k' := k') (r := r)
              rcases hx : Unix.mapFile t k fd mapoff maplen o.protect with ⟨k1, e | p⟩
              · rw [hx] at h
                injection h with h
                injection h with g1 g2
                subst g1 g2
                cases st hx with
                | failed did form stops =>
                  rename_i es
                  obtain ⟨c, pm, hc⟩ := form
                  obtain ⟨ev, rfl⟩ : ∃ ev, es = [ev] := by
                    cases es with
                    | nil => cases hc
                    | cons a l => cases l with
                      | nil => exact ⟨a, rfl⟩
                      | cons b l => cases hc
                  injection hc with hc _
                  subst hc
                  exact .inr ⟨_, _, pm, did, fun m hm => by cases hm⟩
              · rw [hx] at h
                injection h with h
                injection h with g1 g2
                subst g1 g2
                cases st hx with
                | passed did form good =>
                  rename_i es
                  obtain ⟨c, pm, hc⟩ := form
                  obtain ⟨ev, rfl⟩ : ∃ ev, es = [ev] := by
                    cases es with
                    | nil => cases hc
                    | cons a l => cases l with
                      | nil => exact ⟨a, rfl⟩
                      | cons b l => cases hc
                  injection hc with hc _
                  subst hc
                  obtain ⟨v, hv⟩ := good ev (List.mem_singleton.mpr rfl)
                  exact .inr ⟨_, _, pm, did, fun m hm => ⟨v, hv⟩⟩

theorem calls_append (es fs : List Event) : calls (es ++ fs) = calls es ++ calls fs := List.map_append

/-- The calls of `map_if`. -/
theorem mapIf_did (tab : SysTable) (o : Options) (fits : Fits t o) (fd : Nat) {k' : Kernel}
    {r : Result (Option MapMut)} (h : o.mapIf tab t k fd = .ok (k', r)) :
    ∃ es, Did k k' es ∧ FileCalls o fd es ∧ (∀ m, r = .ok (some m) → EndsMapped es) := by
  unfold Options.mapIf at h
  rcases hl : File.len tab k fd with ⟨k1, e | n⟩
  · rw [hl] at h
    injection h with h
    injection h with h1 h2
    subst h1 h2
    rcases fileLen_did tab fd hl with ⟨x, y, -, d⟩ | ⟨n, h, -⟩
    · exact ⟨_, d, ⟨[], [], [], rfl, .inl rfl, .inl rfl, .inl rfl, .single _⟩, fun m hm => by cases hm⟩
    · cases h
  · rw [hl] at h
    dsimp only at h
    rcases fileLen_did tab fd hl with ⟨x, y, h', -⟩ | ⟨n', -, d1⟩
    · cases h'
    · rcases ht : Options.truncateStep tab k1 o fd (asUsize t n) with ⟨k2, e | flen⟩
      · rw [ht] at h
        injection h with h
        injection h with h1 h2
        subst h1 h2
        cases truncateStep_did tab o fd _ ht with
        | failed did form stops =>
          rename_i es
          refine ⟨_, d1.trans did, ⟨calls es, [], [], ?_, form, .inl rfl, .inl rfl, .after .one stops⟩,
            fun m hm => by cases hm⟩
          rw [calls_append, List.append_nil, List.append_nil]; rfl
      · rw [ht] at h
        dsimp only at h
        cases truncateStep_did tab o fd _ ht with
        | passed did2 form2 good2 =>
          rename_i es2
          have d2 := d1.trans did2
          have g2 := AllOk.append (AllOk.one (c := .fstat fd) (v := n')) good2
          rcases hr : Options.resizeStep tab k2 o fd flen with ⟨k3, e | flen'⟩
          · rw [hr] at h
            injection h with h
            injection h with h1 h2
            subst h1 h2
            cases resizeStep_did tab o fits fd _ hr with
            | failed did form stops =>
              rename_i es
              refine ⟨_, d2.trans did, ⟨calls es2, calls es, [], ?_, form2, form, .inl rfl,
                .after g2 stops⟩, fun m hm => by cases hm⟩
              rw [calls_append, calls_append, List.append_nil, List.append_assoc]; rfl
          · rw [hr] at h
            dsimp only at h
            cases resizeStep_did tab o fits fd _ hr with
            | passed did3 form3 good3 =>
              rename_i es3
              have d3 := d2.trans did3
              have g3 := g2.append good3
              rcases mapStep_did o fd flen' h with ⟨rfl, d4⟩ | ⟨c, v, pm, d4, ok⟩
              · refine ⟨_, d3.trans d4, ⟨calls es2, calls es3, [], ?_, form2, form3, .inl rfl,
                  .after g3 .nil⟩, fun m hm => by cases hm⟩
                simp only [calls_append, List.append_nil, List.append_assoc]; rfl
              · refine ⟨_, d3.trans d4, ⟨calls es2, calls es3, [c], ?_, form2, form3,
                  .inr ⟨c, pm, rfl⟩, .after g3 (.single _)⟩, fun m hm => ?_⟩
                · simp only [calls_append, List.append_assoc]; rfl
                · obtain ⟨p, rfl⟩ := ok m hm
                  obtain ⟨n, prot, flags, off, -, hc⟩ := pm
                  refine ⟨g3.append .one, c, n, prot, flags, some fd, off, ?_, hc⟩
                  rw [calls_append]
                  exact List.getLast?_concat

/-- The calls of `open_if`. -/
theorem open_did (tab : SysTable) (o : OpenOptions) (path : String) {k' : Kernel} {r : IoResult Nat}
    (h : o.open tab k path = (k', r)) :
    (∃ x, r = .error x ∧ Did k k' []) ∨
    (∃ e x, r = .error x ∧ Did k k' [⟨.open path, .error e⟩]) ∨
    (∃ n, r = .ok n ∧ Did k k' [⟨.open path, .ok n⟩]) := by
  have key : ∀ a b c d, ioErr tab (k.openFile path a b c d) = (k', r) →
      (∃ x, r = .error x ∧ Did k k' []) ∨
      (∃ e x, r = .error x ∧ Did k k' [⟨.open path, .error e⟩]) ∨
      (∃ n, r = .ok n ∧ Did k k' [⟨.open path, .ok n⟩]) := by
    intro a b c e h
    have d := (record_did (c := .open path) (val := id) (openCore_log (k := k) path a b c e)).1
    have hd : record (.open path) id (openCore k path a b c e) = k.openFile path a b c e := rfl
    have h2 : (openCore k path a b c e).2 = (k.openFile path a b c e).2 := rfl
    rw [hd, h2] at d
    unfold ioErr at h
    rcases hx : k.openFile path a b c e with ⟨k1, e | n⟩
    · rw [hx] at h d
      injection h with h3 h4
      subst h3
      exact .inr (.inl ⟨e, _, h4.symm, d⟩)
    · rw [hx] at h d
      injection h with h3 h4
      subst h3
      exact .inr (.inr ⟨_, h4.symm, d⟩)
  unfold OpenOptions.open at h
  split at h
  · injection h with h1 h2
    subst h1
    exact .inl ⟨_, h2.symm, Did.refl k⟩
  · split at h
    · exact key _ _ _ _ h
    · exact key _ _ _ _ h

theorem close_did (fd : Nat) : Did k (k.close fd) [⟨.close fd, .ok 0⟩] := rfl

theorem unmap_fst (a l : Nat) : (Unix.unmap k a l).1 = (k.munmap a l).1 := by
  unfold Unix.unmap wrapErr
  rcases k.munmap a l with ⟨_, _ | _⟩ <;> rfl

theorem unmap_did (a l : Nat) :
    Did k (Unix.unmap k a l).1 [⟨.munmap a l, (k.munmap a l).2.map (fun _ => 0)⟩] := by
  rw [unmap_fst]; exact munmap_did a l

/-- The mappings of the ring functions. -/
theorem posixMap_did (op : Operation) (pg len : Nat) (flags : MapFlags) (fd : Option Nat) {k' : Kernel}
    {r : Result Nat} (h : Posix.map t k op pg len flags fd = (k', r)) :
    ∃ v, Did k k' [⟨.mmap pg len Unix.protRW flags fd 0, v⟩] ∧ (∀ p, r = .ok p → v = .ok p) ∧
      (∀ x, r = .error x → ∃ e, v = .error e) := by
  unfold Posix.map at h
  have d := mmap_did (t := t) (k := k) pg len Unix.protRW flags fd 0
  rcases hx : k.mmap t pg len Unix.protRW flags fd 0 with ⟨k1, e | p⟩
  · rw [hx] at h d
    injection h with h1 h2
    subst h1 h2
    exact ⟨_, d, (fun p hp => by cases hp), (fun _ _ => ⟨e, rfl⟩)⟩
  · rw [hx] at h d
    injection h with h1 h2
    subst h1 h2
    exact ⟨_, d, fun q hq => by injection hq with hq; rw [← hq]; rfl, fun _ hx => by cases hx⟩

theorem memfdCreateCore_log : (memfdCreateCore k).1.log = k.log := by
  unfold memfdCreateCore
  dsimp only
  split <;> rfl

/-- The file of a ring. -/
theorem tmpOpen_did (size : Nat) {k' : Kernel} {r : Result Nat} (h : Posix.tmpOpen t k size = (k', r)) :
    (∃ e x, r = .error x ∧ Did k k' [⟨.memfd, .error e⟩]) ∨
    (∃ fd e x, r = .error x ∧
      Did k k' [⟨.memfd, .ok fd⟩, ⟨.ftruncate fd size, .error e⟩, ⟨.close fd, .ok 0⟩]) ∨
    (∃ fd, r = .ok fd ∧ size < t.lim / 2 ∧
      Did k k' [⟨.memfd, .ok fd⟩, ⟨.ftruncate fd size, .ok 0⟩]) := by
  unfold Posix.tmpOpen Posix.memfdOpen at h
  have d := (record_did (c := .memfd) (val := id) (memfdCreateCore_log (k := k))).1
  have hd : record .memfd id (memfdCreateCore k) = k.memfdCreate := rfl
  have h2 : (memfdCreateCore k).2 = k.memfdCreate.2 := rfl
  rw [hd, h2] at d
  rcases hx : k.memfdCreate with ⟨k1, e | fd⟩
  · rw [hx] at h d
    injection h with h3 h4
    subst h3
    exact .inl ⟨e, _, h4.symm, d⟩
  · rw [hx] at h d
    simp only [wrapErr] at h
    have d2 := (record_did (c := .ftruncate fd size) (val := fun _ : Unit => 0)
      (ftruncateCore_log (t := t) (k := k1) fd size)).1
    have hd2 : record (.ftruncate fd size) (fun _ => 0) (ftruncateCore t k1 fd size) =
      k1.ftruncate t fd size := rfl
    have h22 : (ftruncateCore t k1 fd size).2 = (k1.ftruncate t fd size).2 := rfl
    rw [hd2, h22] at d2
    have small : ∀ k2, k1.ftruncate t fd size = (k2, .ok ()) → size < t.lim / 2 := by
      intro k2 hk
      have : (ftruncateCore t k1 fd size).2 = .ok () := by rw [h22, hk]
      unfold ftruncateCore at this
      dsimp only at this
      split at this
      · cases this
      · split at this
        · cases this
        · rename_i hc
          simp only [Bool.or_eq_true, decide_eq_true_eq, not_or] at hc
          omega
    rcases hy : k1.ftruncate t fd size with ⟨k2, e | u⟩
    · rw [hy] at h d2
      injection h with h3 h4
      subst h3
      exact .inr (.inl ⟨fd, e, _, h4.symm, (d.trans d2).trans (close_did fd)⟩)
    · rw [hy] at h d2
      injection h with h3 h4
      subst h3
      exact .inr (.inr ⟨fd, h4.symm, small _ hy, d.trans d2⟩)

/-- The calls of `map_ring`. -/
theorem mapRing_did (len : Nat) {k' : Kernel} {r : Result Nat}
    (h : Posix.mapRing t k len = .ok (k', r)) :
    ∃ es, Did k k' es ∧ RingCalls es ∧ (∀ p, r = .ok p → AllOk es ∧ es.length = 6) := by
  unfold Posix.mapRing at h
  rcases hx : Posix.tmpOpen t k len with ⟨k1, e | fd⟩
  · rw [hx] at h
    injection h with h
    injection h with h1 h2
    subst h1 h2
    rcases tmpOpen_did len hx with ⟨e, x, -, d⟩ | ⟨fd, e, x, -, d⟩ | ⟨fd, h, -⟩
    · exact ⟨_, d, .inl ⟨e, rfl⟩, fun p hp => by cases hp⟩
    · exact ⟨_, d, .inr ⟨fd, len, [], rfl, .inl rfl⟩, fun p hp => by cases hp⟩
    · cases h
  · rcases tmpOpen_did len hx with ⟨e, x, h, -⟩ | ⟨fd, e, x, h, -⟩ | ⟨fd', hfd, small, d1⟩
    · cases h
    · cases h
    · injection hfd with hfd
      subst hfd
      rw [hx] at h
      have h2 : len * 2 < t.lim := by omega
      have h2' : 2 * len < t.lim := by omega
      simp only [Posix.wrapFd, Posix.mulU_ok h2, bind, Except.bind] at h
      rcases hm : Posix.map t k1 .ringAllocate 0 (len * 2) { priv := true, anon := true } none with
        ⟨k2, e | pg⟩
      · obtain ⟨v, d2, -⟩ := posixMap_did _ _ _ _ _ hm
        rw [hm] at h
        injection h with h
        injection h with g1 g2
        subst g1 g2
        exact ⟨_, (d1.trans d2).trans (close_did fd), .inr ⟨fd, len, [_], rfl,
          .inr ⟨_, ⟨_, _, _, _, rfl, rfl⟩, .inl rfl⟩⟩, fun p hp => by cases hp⟩
      · obtain ⟨v, d2, ok2, -⟩ := posixMap_did _ _ _ _ _ hm
        have hv := ok2 pg rfl
        subst hv
        rw [hm] at h
        dsimp only at h
        unfold Posix.wrapPtr at h
        rcases hm3 : Posix.map t k2 .ringPrimary pg len { shared := true, fixed := true } (some fd) with
          ⟨k3, e | q⟩
        · obtain ⟨v, d3, -⟩ := posixMap_did _ _ _ _ _ hm3
          rw [hm3] at h
          simp only [Posix.unmapRing, Posix.mulU_ok h2', bind, Except.bind, pure, Except.pure] at h
          injection h with h
          injection h with g1 g2
          subst g1 g2
          have d4 := unmap_did (k := k3) pg (2 * len)
          exact ⟨_, (((d1.trans d2).trans d3).trans d4).trans (close_did fd), .inr ⟨fd, len, [_, _, _], rfl,
            .inr ⟨_, ⟨_, _, _, _, rfl, rfl⟩, .inr ⟨pg, _, { shared := true, fixed := true }, rfl, rfl,
              .inl rfl⟩⟩⟩, fun p hp => by cases hp⟩
        · obtain ⟨v, d3, ok3, -⟩ := posixMap_did _ _ _ _ _ hm3
          have hv := ok3 q rfl
          subst hv
          rw [hm3] at h
          dsimp only at h
          rcases hm4 : Posix.map t k3 .ringSecondary (pg + len) len { shared := true, fixed := true }
            (some fd) with ⟨k4, e | q'⟩
          · obtain ⟨v, d4, -⟩ := posixMap_did _ _ _ _ _ hm4
            rw [hm4] at h
            simp only [Posix.unmapRing, Posix.mulU_ok h2', bind, Except.bind, pure, Except.pure] at h
            injection h with h
            injection h with g1 g2
            subst g1 g2
            have d5 := unmap_did (k := k4) pg (2 * len)
            exact ⟨_, ((((d1.trans d2).trans d3).trans d4).trans d5).trans (close_did fd), .inr ⟨fd, len,
              [_, _, _, _], rfl, .inr ⟨_, ⟨_, _, _, _, rfl, rfl⟩, .inr ⟨pg, _,
                { shared := true, fixed := true }, rfl, rfl, .inr (.inl rfl)⟩⟩⟩, fun p hp => by cases hp⟩
          · obtain ⟨v, d4, ok4, -⟩ := posixMap_did _ _ _ _ _ hm4
            have hv := ok4 q' rfl
            subst hv
            rw [hm4] at h
            injection h with h
            injection h with g1 g2
            subst g1 g2
            refine ⟨_, (((d1.trans d2).trans d3).trans d4).trans (close_did fd), .inr ⟨fd, len,
              [_, _, _], rfl, .inr ⟨_, ⟨_, _, _, _, rfl, rfl⟩, .inr ⟨pg, _,
                { shared := true, fixed := true }, rfl, rfl, .inr (.inr rfl)⟩⟩⟩, fun p hp => ⟨?_, rfl⟩⟩
            intro e he
            simp only [List.mem_append, List.mem_cons, List.not_mem_nil, or_false] at he
            rcases he with ((((rfl | rfl) | rfl) | rfl) | rfl) | rfl <;> exact ⟨_, rfl⟩

end

section
variable {tab : SysTable} {t : Target} {k0 : Kernel} {w w' : World}

theorem oneCall_did {k k' : Kernel} {c : Call} {op : Operation} {r : Result Unit}
    (h : OneCall k k' c op r) : ∃ v, Did k k' [⟨c, v⟩] := by
  rcases h with ⟨h, -⟩ | ⟨e, _, h, -⟩
  · exact ⟨_, Did.one h⟩
  · exact ⟨_, Did.one h⟩

theorem OnPages.of {u p n a l addr sz : Nat} {f : Nat → Nat → Call} {v : Except Errno Nat}
    (h : Encloses u p n a l addr sz) : OnPages u a l f [⟨f addr sz, v⟩] :=
  ⟨addr, sz, h.addr_dvd, h.len_dvd, h.lower, h.lower', h.upper, h.upper', rfl⟩

/-- The sub-range calls. -/
theorem range_makes {k : Kernel} (wf : Wf t k) {m : MapMut} {p n : Nat} (g : Live t k m p n)
    {off len : Nat} (hl : off + len < t.lim) {op : Operation} {sys : Nat → Nat → Kernel × Result Unit}
    {f : Nat → Nat → Call}
    (one : ∀ P N, ∃ k' r, sys (P * k.page) (N * k.page) = (k', r) ∧
      OneCall k k' (f (P * k.page) (N * k.page)) op r)
    {k' : Kernel} {r : Result Unit} (h : rangeOp t k m off len op sys = .ok (k', r)) :
    ∃ es, Did k k' es ∧
      (if off + len ≤ m.len then OnPages k.page (m.ptr + off) len f es else es = []) := by
  by_cases hin : off + len ≤ m.len
  · obtain ⟨-, -, -, -, enc⟩ := range_bounds wf g.pages hin
    rw [rangeOp_in wf g.pages hin] at h
    obtain ⟨k1, r1, h1, h2⟩ := one (pg k (m.ptr + off)) (npg k (m.ptr + off) len)
    rw [h1] at h
    injection h with h
    injection h with e1 e2
    subst e1
    obtain ⟨v, d⟩ := oneCall_did h2
    exact ⟨_, d, by rw [if_pos hin]; exact OnPages.of enc⟩
  · rw [rangeOp_out (by omega) hl] at h
    injection h with h
    injection h with e1 e2
    subst e1
    exact ⟨[], Did.refl k, by rw [if_neg hin]⟩

theorem onMap_cases {α : Type} {i : Nat} {f : MapMut → Exec (Kernel × α)}
    (h : w.onMap i f = .ok w') :
    (∃ m k' a, w.held i = some (.map m) ∧ f m = .ok (k', a) ∧ w' = w.run k') ∨
    ((∀ m, w.held i ≠ some (.map m)) ∧ w' = w) := by
  unfold World.onMap at h
  split at h
  · rename_i m hm
    cases hf : f m with
    | error e => rw [hf] at h; cases h
    | ok x =>
      obtain ⟨k', a⟩ := x
      rw [hf] at h
      injection h with h
      exact .inl ⟨m, k', a, hm, hf, h.symm⟩
  · rename_i hn
    injection h with h
    exact .inr ⟨fun m hm => hn m hm, h.symm⟩

/-- Conversions. -/
theorem protect_makes {k : Kernel} (wf : Wf t k) {m : MapMut} {p n : Nat} (g : Live t k m p n) :
    ∃ k' r addr sz, (Size.page k).bounds t m.ptr m.len = .ok (addr, sz) ∧
      Unix.protect k addr sz .readWrite = (k', r) ∧
      ∃ es, Did k k' es ∧ OnPages k.page m.ptr m.len (fun a l => .mprotect a l ⟨true, true, false⟩) es := by
  obtain ⟨-, hb, -, -, enc⟩ := range_bounds wf g.pages (off := 0) (l := m.len) (by omega)
  obtain ⟨k1, r1, h1, h2, -⟩ := protect_fx k wf.page_pos (pg k (m.ptr + 0)) (npg k (m.ptr + 0) m.len)
  obtain ⟨v, d⟩ := oneCall_did h2
  exact ⟨k1, r1, _, _, hb, h1, _, d, OnPages.of enc⟩

theorem ring_unmap_did {k : Kernel} {ptr len : Nat} {o : Obj} (wf : Wf t k) (m : k.Mirror t ptr len o)
    {k' : Kernel} {r : Result Unit} (h : Posix.unmapRing t k ptr len = .ok (k', r)) :
    Did k k' [⟨.munmap ptr (2 * len), .ok 0⟩] := by
  have hlim : 2 * len < t.lim := by
    have h1 := m.fits
    have h2 := m.len_pos
    obtain ⟨e, he, -⟩ := m.shows' 0 (by omega)
    have h3 := wf.addr _ e he
    have h4 : 0 < ptr := by
      apply Nat.pos_of_ne_zero
      intro h0
      rw [h0, Nat.zero_add, Nat.zero_div] at h3
      omega
    omega
  have hne : 2 * len ≠ 0 := by have := m.len_pos; omega
  simp only [Posix.unmapRing, Posix.mulU_ok hlim, bind, Except.bind, pure, Except.pure, Unix.unmap,
    munmap_eq hne (Nat.mod_eq_zero_of_dvd m.ptr_dvd), wrapErr] at h
  injection h with h
  injection h with h1 h2
  subst h1
  exact Did.one rfl

/-- The call of `unmap_ring`, on any Unix. -/
theorem os_unmap_did {k : Kernel} {ptr len : Nat} {o : Obj} (wf : Wf t k) (m : k.Mirror t ptr len o)
    {k' : Kernel} {r : Result Unit} (h : Os.unmapRing t k ptr len = .ok (k', r)) :
    ∃ es, Did k k' es ∧ (if k.mach = true then es = [⟨.vmDeallocate ptr (2 * len), .ok 0⟩]
      else es = [⟨.munmap ptr (2 * len), .ok 0⟩]) := by
  unfold Os.unmapRing at h
  split at h
  · rename_i hm
    obtain ⟨k1, e, -, -, -, -, -, hl⟩ := darwin_unmapRing_mirror wf m
    rw [e] at h
    injection h with h
    injection h with h _
    subst h
    exact ⟨_, Did.one hl, by rw [if_pos hm]⟩
  · rename_i hm
    exact ⟨_, ring_unmap_did wf m h, by rw [if_neg hm]⟩

/-- The calls of `map_ring`, on any Unix. -/
theorem os_mapRing_did {k : Kernel} (wf : Wf t k) {hint len : Nat} (fits : RingFits t k hint)
    (hr : (Size.withSize (Unix.systemInfo k).2).round t hint = .ok len) {k' : Kernel} {r : Result Nat}
    (h : Os.mapRing t k len = .ok (k', r)) :
    ∃ es, Did k k' es ∧ (if k.mach = true then
        DarwinRingCalls es ∧ (∀ p, r = .ok p → AllOk es ∧ es.length = 4)
      else RingCalls es ∧ (∀ p, r = .ok p → AllOk es ∧ es.length = 6)) := by
  unfold Os.mapRing at h
  split at h
  · rename_i hm
    obtain ⟨s, hs, hs2⟩ := wf.page
    have hu := Nat.two_pow_pos s
    have h1 : (Size.withSize k.page).round t hint = .ok ((hint + k.page - 1) / k.page * k.page) := by
      have := fits.1
      rw [hs] at this ⊢
      exact round_eq (by omega) this
    have h2 : len = (hint + k.page - 1) / k.page * k.page := by
      have := hr.symm.trans h1
      injection this
    subst h2
    have hl : 2 * ((hint + k.page - 1) / k.page * k.page) < t.lim := by
      have := fits.2 hm
      have := Nat.div_mul_le_self (hint + k.page - 1) k.page
      have := wf.page_pos
      omega
    rcases Darwin.mapRing_cases wf hl with ⟨k1, err, l, he, -, -, hlog, tr, -⟩ |
      ⟨k1, p, o, he, -, -, -, -, -, -, -, -, -, -, -, -, -, hlog⟩
    · rw [he] at h
      injection h with h
      injection h with h3 h4
      subst h3 h4
      refine ⟨l.reverse, by unfold Did; rw [List.reverse_reverse]; exact hlog, ?_⟩
      rw [if_pos hm]
      refine ⟨?_, fun _ h => by cases h⟩
      cases tr with
      | reserve e => exact ⟨_, _, _, rfl, .inl ⟨⟨e, rfl⟩, rfl⟩⟩
      | primary p e => exact ⟨_, _, _, rfl, .inr ⟨p, rfl, .inl rfl⟩⟩
      | entry p e => exact ⟨_, _, _, rfl, .inr ⟨p, rfl, .inr (.inl rfl)⟩⟩
      | secondary p e port => exact ⟨_, _, _, rfl, .inr ⟨p, rfl, .inr (.inr ⟨port, .inl rfl⟩)⟩⟩
    · rw [he] at h
      injection h with h
      injection h with h3 h4
      subst h3 h4
      refine ⟨[⟨.vmAllocate (2 * _), .ok (p * k.page)⟩, ⟨.vmAllocateAt (p * k.page) _, .ok 0⟩,
        ⟨.memoryEntry (p * k.page) _, .ok k.ports.length⟩, ⟨.vmMap (p * k.page + _) _ k.ports.length, .ok 0⟩],
        hlog, ?_⟩
      rw [if_pos hm]
      refine ⟨⟨_, _, _, rfl, .inr ⟨_, rfl, .inr (.inr ⟨_, .inr rfl⟩)⟩⟩, fun _ _ => ⟨?_, rfl⟩⟩
      intro e he
      simp only [List.mem_cons, List.not_mem_nil, or_false] at he
      rcases he with rfl | rfl | rfl | rfl <;> exact ⟨_, rfl⟩
  · rename_i hm
    obtain ⟨es, d, rc, ok⟩ := mapRing_did len h
    exact ⟨es, d, by rw [if_neg hm]; exact ⟨rc, ok⟩⟩

/-- The call of `alloc`. -/
theorem alloc_did {k k' : Kernel} (o : Options) {r : Result MapMut} (h : o.alloc t k = .ok (k', r)) :
    ∃ c v, PlainMmap none c ∧ Did k k' [⟨c, v⟩] ∧ (∀ m, r = .ok m → ∃ p, v = .ok p) := by
  simp only [Options.alloc, bind, Except.bind] at h
  cases h1 : (Size.page k).offset t o.offset with
  | error e => rw [h1] at h; cases h
  | ok off =>
    rw [h1] at h
    dsimp only at h
    cases h2 : Options.allocLen t k o.len off with
    | error e => rw [h2] at h; cases h
    | ok len =>
      rw [h2] at h
      dsimp only at h
      cases h3 : addU t off len with
      | error e => rw [h3] at h; cases h
      | ok n =>
        rw [h3] at h
        dsimp only [Unix.mapAnon] at h
        have d := mmap_did (t := t) (k := k) 0 n (Unix.mapAnonBits o.protect).1
          (Unix.mapAnonBits o.protect).2 none 0
        have hfix : (Unix.mapAnonBits o.protect).2.fixed = false := by cases o.protect <;> rfl
        rcases hx : k.mmap t 0 n (Unix.mapAnonBits o.protect).1 (Unix.mapAnonBits o.protect).2 none 0
          with ⟨k1, e | p⟩
        · rw [hx] at h d
          injection h with h
          injection h with g1 g2
          subst g1 g2
          exact ⟨_, _, ⟨_, _, _, _, hfix, rfl⟩, d, fun m hm => by cases hm⟩
        · rw [hx] at h d
          injection h with h
          injection h with g1 g2
          subst g1 g2
          exact ⟨_, _, ⟨_, _, _, _, hfix, rfl⟩, d, fun m hm => ⟨p, rfl⟩⟩

theorem store_did {k k' : Kernel} {a : Nat} {b : Byte} (h : k.store a b = .ok k') : Did k k' [] := by
  unfold Kernel.store at h
  repeat' split at h
  all_goals first | (injection h with h; subst h; rfl) | cases h

theorem storeN_did : ∀ {bs : List Byte} {k k' : Kernel} {a : Nat}, k.storeN a bs = .ok k' → Did k k' [] := by
  intro bs
  induction bs with
  | nil => intro k k' a h; injection h with h; subst h; rfl
  | cons b bs ih =>
    intro k k' a h
    obtain ⟨k1, h1, h2⟩ := bind_ok h
    exact (store_did h1).trans (ih h2)

/-- A call on a ring makes no system call. -/
theorem exec_did {k k' : Kernel} {r r' : Ring} {op : RingOp} {x : Resp}
    (h : r.exec t k op = .ok ((k', r'), x)) : Did k k' [] := by
  cases op with
  | write bs =>
    obtain ⟨⟨k1, r1, n⟩, h1, h2⟩ := bind_ok h
    injection h2 with h2; injection h2 with h2 _; injection h2 with h2 _
    subst h2
    unfold Ring.write writeInto at h1
    obtain ⟨dst, -, h1⟩ := bind_ok h1
    split at h1
    · cases h1
    · obtain ⟨k2, h3, h1⟩ := bind_ok h1
      obtain ⟨r2, -, h1⟩ := bind_ok h1
      injection h1 with h1; injection h1 with h1 _
      subst h1
      exact storeN_did h3
  | poke bs =>
    obtain ⟨k1, h1, h2⟩ := bind_ok h
    injection h2 with h2; injection h2 with h2 _; injection h2 with h2 _
    subst h2
    unfold poke at h1
    obtain ⟨dst, -, h1⟩ := bind_ok h1
    exact storeN_did h1
  | clear => injection h with h; injection h with h _; injection h with h _; subst h; rfl
  | capacity => injection h with h; injection h with h _; injection h with h _; subst h; rfl
  | _ =>
    obtain ⟨y, -, h2⟩ := bind_ok h
    injection h2 with h2; injection h2 with h2 _; injection h2 with h2 _
    subst h2
    rfl

theorem Uses.did {k k' : Kernel} {r r' : Ring} {c : Nat} (h : Uses t k r c k' r') : Did k k' [] := by
  obtain ⟨ops, xs, h, -⟩ := h
  induction ops generalizing k r xs with
  | nil => injection h with h; injection h with h _; injection h with h _; subst h; rfl
  | cons op ops ih =>
    obtain ⟨⟨⟨k1, r1⟩, x⟩, h1, h2⟩ := bind_ok h
    obtain ⟨⟨⟨k2, r2⟩, ys⟩, h3, h4⟩ := bind_ok h2
    injection h4 with h4; injection h4 with h4 _
    injection h4 with h4 h5
    subst h4 h5
    exact (exec_did h1).trans (ih _ h3)

end
end Vmap
