import Verif.Proofs.BufReader
import Verif.Props.BufWriter
import Verif.Spec.BufferStd
/- Helper lemmas: the standard library's loops over a `BufReader` or `BufWriter`. -/
namespace Vmap
open Spec Kernel
variable {σ : Type}

theorem interrupts_append (a b : List ReadEvent) :
    interrupts (a ++ b) = interrupts a + interrupts b := by
  simp [interrupts]

theorem SaidEof.after {ev : List ReadEvent} (h : SaidEof ev) (a : List ReadEvent) :
    SaidEof (a ++ ev) := by
  obtain ⟨b, x, st, h1, h2⟩ := h
  exact ⟨a ++ b, x, st, by rw [h1, List.append_assoc], h2⟩

theorem SaidErr.after {ev : List ReadEvent} {e : IoError} (h : SaidErr ev e) (a : List ReadEvent) :
    SaidErr (a ++ ev) e := by
  obtain ⟨i, b, x, st, h1, h2⟩ := h
  exact ⟨i, a ++ b, x, st, by rw [h1, List.append_assoc], h2⟩

theorem SaidPanic.after {ev : List ReadEvent} (h : SaidPanic ev) (a : List ReadEvent) :
    SaidPanic (a ++ ev) := by
  obtain ⟨b, x, st, h1, h2⟩ := h
  exact ⟨a ++ b, x, st, by rw [h1, List.append_assoc], h2⟩

/-- What one `read` over an honest reader means for the stream. -/
inductive ReadStep (q dst : List Byte) : List ReadEvent → List Byte → List Byte → Out Nat → Prop
  | got {ev : List ReadEvent} {q' d : List Byte} (m : Nat) (le : m ≤ dst.length)
      (len : d.length = dst.length) (cons : d.take m ++ q' = q ++ taken ev)
      (eof : m = 0 → dst ≠ [] → q = [] ∧ q' = [] ∧ SaidEof ev)
      (intr : interrupts ev = 0) : ReadStep q dst ev q' d (.ok m)
  | failed {x : ReadEvent} {d : List Byte} (e : IoError) (stored : List Byte)
      (len : d.length = dst.length) (resp : x.resp = .err e stored) :
      ReadStep q dst [x] q d (.err e)
  | unwound {x : ReadEvent} {d : List Byte} (stored : List Byte)
      (resp : x.resp = .panic stored) : ReadStep q dst [x] q d .unwound

theorem storeFront_len (dst st : List Byte) :
    (BufReader.storeFront dst st).length = dst.length := by
  simp only [BufReader.storeFront, List.length_append, List.length_take, List.length_drop]; omega

theorem read_step (R : Reader σ) (honest : R.Honest) {t : Target} {k : Kernel}
    {b : BufReader (σ × List ReadEvent)} {n : Nat} {q sp : List Byte}
    (h : View t k b.buf n q sp) (hb : n + b.buf.len < posBound t b.buf.len) (dst : List Byte) :
    ∃ k' b' d x n' q' sp' ev, b.read R.spy t k dst = .ok (k', b', d, x) ∧
      View t k' b'.buf n' q' sp' ∧ n' ≤ n + b.buf.len ∧ b'.buf.len = b.buf.len ∧
      b'.inner.2 = b.inner.2 ++ ev ∧ ReadStep q dst ev q' d x := by
  have hl := h.len
  have hlp := h.len_pos
  obtain ⟨k', b', d, x, e, hd⟩ := read_view R h hb dst
  cases hd with
  | direct s' resp _ _ empty big call res =>
    refine ⟨_, _, d, x, n, q, sp, _, e, h, by omega, rfl, rfl, ?_⟩
    have hh := honest b.inner.1 dst
    rw [call] at hh
    subst empty
    cases resp with
    | ok m stored =>
      obtain ⟨r1, r2⟩ := res
      subst r1 r2
      refine .got m hh (storeFront_len _ _) ?_ ?_ ?_
      · simp [taken_one, ReadEvent.bytes, BufReader.storeFront]
      · rintro rfl hne
        exact ⟨rfl, rfl, [], _, stored, rfl, hne, rfl⟩
      · simp [interrupts]
    | err e stored =>
      obtain ⟨r1, r2⟩ := res
      subst r1 r2
      exact .failed _ stored (storeFront_len _ _) rfl
    | panic stored =>
      obtain ⟨r1, r2⟩ := res
      subst r1 r2
      exact .unwound stored rfl
  | buffered _ b1 _ rem sp' n' small fill inner lowat len ptr le view =>
    have ht := storeFront_take dst (rem.take (min rem.length dst.length)) (by simp; omega)
    rw [List.length_take, Nat.min_eq_left (Nat.min_le_left _ _)] at ht
    have hcut : rem.take (min rem.length dst.length) ++ rem.drop dst.length = rem := by
      by_cases c : rem.length ≤ dst.length
      · rw [Nat.min_eq_left c, List.take_length, List.drop_eq_nil_of_le c, List.append_nil]
      · rw [Nat.min_eq_right (by omega), List.take_append_drop]
    generalize hx : Out.ok rem = y at fill
    cases fill with
    | asked _ _ m stored sp'' low log call lowat' len' ptr' view' =>
      injection hx with hx
      refine ⟨_, _, _, _, n', _, sp', _, e, view, le, len, by rw [inner, log], .got _ (by omega)
        (storeFront_len _ _) ?_ ?_ ?_⟩
      · rw [ht, hcut, taken_one, hx]
      · intro hm hne
        have := List.length_pos_iff.mpr hne
        have hrem : rem = [] := List.eq_nil_of_length_eq_zero (by omega)
        rw [hrem] at hx
        obtain ⟨hq0, hb0⟩ := List.append_eq_nil_iff.mp hx.symm
        refine ⟨hq0, by rw [hrem, List.drop_nil], [], _, stored, rfl, ?_, ?_⟩
        · intro hs
          simp only at hs
          rw [hq0, hs] at hl
          simp at hl; omega
        · have hlen := congrArg List.length hb0
          simp only [ReadEvent.bytes, List.length_take, List.length_append, List.length_drop,
            List.length_nil] at hlen
          rw [hq0, List.length_nil, Nat.zero_add] at hl
          have : m = 0 := by omega
          simp only [this]
      · simp [interrupts]
    | failed => cases hx
    | unwound => cases hx
    | enough high =>
      injection hx with hx
      subst hx
      refine ⟨_, _, _, _, n', _, sp', [], e, view, le, len, by rw [inner]; simp,
        .got _ (by omega) (storeFront_len _ _) ?_ ?_ rfl⟩
      · rw [ht, hcut]; simp [taken]
      · intro hm hne
        have := List.length_pos_iff.mpr hne
        have : rem.length = 0 := by omega
        omega
  | failed _ _ e1 small fill =>
    generalize hx : Out.err e1 = y at fill
    cases fill with
    | failed _ _ e' stored sp' low log call lowat buf view =>
      injection hx with hx
      subst hx
      exact ⟨_, _, _, _, n, q, sp', _, e, view, by omega, by rw [buf], log,
        .failed _ stored rfl rfl⟩
    | asked => cases hx
    | unwound => cases hx
    | enough => cases hx
  | unwound _ _ small fill =>
    generalize hx : (Out.unwound : Out (List Byte)) = y at fill
    cases fill with
    | unwound _ _ stored sp' low log call lowat buf view =>
      exact ⟨_, _, _, _, n, q, sp', _, e, view, by omega, by rw [buf], log, .unwound stored rfl⟩
    | asked => cases hx
    | failed => cases hx
    | enough => cases hx

/-- What one `fill_buf` means for the stream (for any reader). -/
inductive FillStep (q : List Byte) : List ReadEvent → List Byte → Out (List Byte) → Prop
  | got {ev : List ReadEvent} {q' : List Byte} (cons : q' = q ++ taken ev)
      (eof : q' = [] → SaidEof ev) : FillStep q ev q' (.ok q')
  | failed {x : ReadEvent} (e : IoError) (stored : List Byte) (resp : x.resp = .err e stored) :
      FillStep q [x] q (.err e)
  | unwound {x : ReadEvent} (stored : List Byte) (resp : x.resp = .panic stored) :
      FillStep q [x] q .unwound

theorem fill_step (R : Reader σ) {t : Target} {k : Kernel}
    {b : BufReader (σ × List ReadEvent)} {n : Nat} {q sp : List Byte}
    (h : View t k b.buf n q sp) (hb : n + b.buf.len < posBound t b.buf.len) :
    ∃ k' b' x n' q' sp' ev, b.fillBuf R.spy t k = .ok (k', b', x) ∧
      View t k' b'.buf n' q' sp' ∧ n' ≤ n + b.buf.len ∧ b'.buf.len = b.buf.len ∧
      b'.inner.2 = b.inner.2 ++ ev ∧ FillStep q ev q' x := by
  have hl := h.len
  have hlp := h.len_pos
  obtain ⟨k', b', x, e, hf⟩ := fill_view R h hb
  cases hf with
  | asked _ _ m stored sp' low log call lowat len ptr view =>
    refine ⟨_, _, _, _, _, sp', _, e, view, by omega, len, log, .got (by rw [taken_one]) ?_⟩
    intro hx
    obtain ⟨hq0, hb0⟩ := List.append_eq_nil_iff.mp hx
    refine ⟨[], _, stored, rfl, ?_, ?_⟩
    · intro hs
      simp only at hs
      rw [hq0, hs] at hl
      simp at hl; omega
    · have hlen := congrArg List.length hb0
      simp only [ReadEvent.bytes, List.length_take, List.length_append, List.length_drop,
        List.length_nil] at hlen
      rw [hq0, List.length_nil, Nat.zero_add] at hl
      have : m = 0 := by omega
      simp only [this]
  | failed _ _ e' stored sp' low log call lowat buf view =>
    exact ⟨_, _, _, n, q, sp', _, e, view, by omega, by rw [buf], log, .failed _ stored rfl⟩
  | unwound _ _ stored sp' low log call lowat buf view =>
    exact ⟨_, _, _, n, q, sp', _, e, view, by omega, by rw [buf], log, .unwound stored rfl⟩
  | enough high =>
    refine ⟨_, _, _, n, q, sp, [], e, h, by omega, rfl, by simp, .got (by simp [taken]) ?_⟩
    intro hq; rw [hq] at high; simp at high

/-! ### The loops -/

theorem readExact_view (R : Reader σ) (honest : R.Honest) {t : Target} : ∀ (fuel : Nat) {k : Kernel}
    {b : BufReader (σ × List ReadEvent)} {n : Nat} {q sp : List Byte} (acc dst : List Byte),
    View t k b.buf n q sp → n + fuel * b.buf.len < posBound t b.buf.len →
    ∃ k' b' got x n' q' sp' ev, b.readExact R.spy t fuel k acc dst = .ok (k', b', acc ++ got, x) ∧
      View t k' b'.buf n' q' sp' ∧ n' ≤ n + fuel * b.buf.len ∧ b'.buf.len = b.buf.len ∧
      b'.inner.2 = b.inner.2 ++ ev ∧ got ++ q' = q ++ taken ev ∧
      match x with
      | .ok () => got.length = dst.length
      | .err e => got.length < dst.length ∧
          ((e = .ofKind .unexpectedEof ∧ q' = [] ∧ SaidEof ev) ∨ SaidErr ev e)
      | .unwound => got.length < dst.length ∧ SaidPanic ev
      | .pending => got.length ≤ dst.length ∧ fuel ≤ got.length + interrupts ev
  | 0, k, b, n, q, sp, acc, dst, h, _ =>
    ⟨k, b, [], .pending, n, q, sp, [], by simp [BufReader.readExact, pure, Except.pure], h, by simp,
      rfl, by simp, by simp [taken], by simp⟩
  | fuel + 1, k, b, n, q, sp, acc, dst, h, hb => by
    rw [Nat.add_mul, Nat.one_mul] at hb ⊢
    simp only [BufReader.readExact]
    by_cases hz : dst.length = 0
    · rw [if_pos hz]
      exact ⟨k, b, [], _, n, q, sp, [], by simp [pure, Except.pure]; rfl, h, by omega, rfl, by simp,
        by simp [taken], by simp [hz]⟩
    rw [if_neg hz]
    have hne : dst ≠ [] := fun c => hz (by simp [c])
    obtain ⟨k1, b1, d, x, n1, q1, sp1, ev1, e1, v1, hn1, l1, lg1, st⟩ :=
      read_step R honest h (by omega) dst
    simp only [e1, bind, Except.bind]
    cases st with
    | got m le len cons eof intr =>
      cases m with
      | zero =>
        obtain ⟨hq, hq1, he⟩ := eof rfl hne
        refine ⟨k1, b1, [], _, n1, q1, sp1, ev1, by simp [pure, Except.pure]; rfl, v1, by omega, l1, lg1,
          by simpa using cons, ?_⟩
        exact ⟨by simp; omega, .inl ⟨rfl, hq1, he⟩⟩
      | succ m =>
        simp only
        rw [if_neg (by omega)]
        obtain ⟨k2, b2, got, y, n2, q2, sp2, ev2, e2, v2, hn2, l2, lg2, cons2, res⟩ :=
          readExact_view R honest fuel (acc ++ d.take (m + 1)) (d.drop (m + 1)) v1
            (by rw [l1]; omega)
        rw [l1] at hn2
        have hl : (d.take (m + 1)).length = m + 1 := by rw [List.length_take]; omega
        refine ⟨k2, b2, d.take (m + 1) ++ got, y, n2, q2, sp2, ev1 ++ ev2, ?_, v2, by omega,
          by rw [l2, l1], by rw [lg2, lg1, List.append_assoc], ?_, ?_⟩
        · rw [e2, List.append_assoc]
        · rw [List.append_assoc, cons2, ← List.append_assoc, cons, taken_append, List.append_assoc]
        · rw [List.length_drop, len] at res
          cases y with
          | ok _ => simp only [List.length_append, hl]; simp only at res; omega
          | err e =>
            obtain ⟨r1, r2⟩ := res
            refine ⟨by simp only [List.length_append, hl]; omega, ?_⟩
            rcases r2 with ⟨r3, r4, r5⟩ | r3
            · exact .inl ⟨r3, r4, r5.after _⟩
            · exact .inr (r3.after _)
          | unwound =>
            exact ⟨by simp only [List.length_append, hl]; have := res.1; omega, res.2.after _⟩
          | pending =>
            obtain ⟨r1, r2⟩ := res
            simp only [List.length_append, hl, interrupts_append]
            omega
    | failed e stored len resp =>
      rename_i x
      simp only
      by_cases hi : e.kind = .interrupted
      · rw [if_pos hi]
        obtain ⟨k2, b2, got, y, n2, q2, sp2, ev2, e2, v2, hn2, l2, lg2, cons2, res⟩ :=
          readExact_view R honest fuel acc d v1 (by rw [l1]; omega)
        rw [l1] at hn2
        have ht : taken [x] = [] := by rw [taken_one, ReadEvent.bytes, resp]
        refine ⟨k2, b2, got, y, n2, q2, sp2, [x] ++ ev2, e2, v2, by omega,
          by rw [l2, l1], by rw [lg2, lg1, List.append_assoc], ?_, ?_⟩
        · rw [cons2, taken_append, ht, List.nil_append]
        · rw [len] at res
          have hc : interrupts [x] = 1 := by simp [interrupts, resp, hi]
          cases y with
          | ok _ => exact res
          | err e =>
            obtain ⟨r1, r2⟩ := res
            refine ⟨r1, ?_⟩
            rcases r2 with ⟨r3, r4, r5⟩ | r3
            · exact .inl ⟨r3, r4, r5.after _⟩
            · exact .inr (r3.after _)
          | unwound =>
            exact ⟨res.1, res.2.after _⟩
          | pending =>
            obtain ⟨r1, r2⟩ := res
            simp only [interrupts_append, hc]
            omega
      · rw [if_neg hi]
        have ht : taken [x] = [] := by rw [taken_one, ReadEvent.bytes, resp]
        exact ⟨k1, b1, [], .err e, n1, _, sp1, _, by simp [pure, Except.pure], v1, by omega, l1, lg1,
          by simp [ht], by simp; omega, .inr ⟨hi, [], x, stored, rfl, resp⟩⟩
    | unwound stored resp =>
      rename_i x
      have ht : taken [x] = [] := by rw [taken_one, ReadEvent.bytes, resp]
      exact ⟨k1, b1, [], .unwound, n1, _, sp1, _, by simp [pure, Except.pure], v1, by omega, l1, lg1,
        by simp [ht], by simp; omega, [], x, stored, rfl, resp⟩

theorem readToEnd_view (R : Reader σ) (honest : R.Honest) {t : Target} : ∀ (fuel : Nat) {k : Kernel}
    {b : BufReader (σ × List ReadEvent)} {n : Nat} {q sp : List Byte} (acc : List Byte)
    (dst : Nat → List Byte), (∀ i, dst i ≠ []) →
    View t k b.buf n q sp → n + fuel * b.buf.len < posBound t b.buf.len →
    ∃ k' b' got x n' q' sp' ev, b.readToEnd R.spy t fuel dst k acc = .ok (k', b', acc ++ got, x) ∧
      View t k' b'.buf n' q' sp' ∧ n' ≤ n + fuel * b.buf.len ∧ b'.buf.len = b.buf.len ∧
      b'.inner.2 = b.inner.2 ++ ev ∧ got ++ q' = q ++ taken ev ∧
      match x with
      | .ok () => q' = [] ∧ SaidEof ev
      | .err e => SaidErr ev e
      | .unwound => SaidPanic ev
      | .pending => fuel ≤ got.length + interrupts ev
  | 0, k, b, n, q, sp, acc, dst, _, h, _ =>
    ⟨k, b, [], .pending, n, q, sp, [], by simp [BufReader.readToEnd, pure, Except.pure], h, by simp,
      rfl, by simp, by simp [taken], by simp⟩
  | fuel + 1, k, b, n, q, sp, acc, dst, hd, h, hb => by
    rw [Nat.add_mul, Nat.one_mul] at hb ⊢
    simp only [BufReader.readToEnd]
    obtain ⟨k1, b1, d, x, n1, q1, sp1, ev1, e1, v1, hn1, l1, lg1, st⟩ :=
      read_step R honest h (by omega) (dst 0)
    simp only [e1, bind, Except.bind]
    cases st with
    | got m le len cons eof intr =>
      cases m with
      | zero =>
        obtain ⟨hq, hq1, he⟩ := eof rfl (hd 0)
        exact ⟨k1, b1, [], .ok (), n1, q1, sp1, ev1, by simp [pure, Except.pure], v1, by omega, l1, lg1,
          by simpa using cons, hq1, he⟩
      | succ m =>
        simp only
        rw [if_neg (by omega)]
        obtain ⟨k2, b2, got, y, n2, q2, sp2, ev2, e2, v2, hn2, l2, lg2, cons2, res⟩ :=
          readToEnd_view R honest fuel (acc ++ d.take (m + 1)) (fun i => dst (i + 1))
            (fun i => hd (i + 1)) v1 (by rw [l1]; omega)
        rw [l1] at hn2
        have hl : (d.take (m + 1)).length = m + 1 := by rw [List.length_take]; omega
        refine ⟨k2, b2, d.take (m + 1) ++ got, y, n2, q2, sp2, ev1 ++ ev2, ?_, v2, by omega,
          by rw [l2, l1], by rw [lg2, lg1, List.append_assoc], ?_, ?_⟩
        · rw [e2, List.append_assoc]
        · rw [List.append_assoc, cons2, ← List.append_assoc, cons, taken_append, List.append_assoc]
        · cases y with
          | ok _ => exact ⟨res.1, res.2.after _⟩
          | err e => exact SaidErr.after res _
          | unwound => exact SaidPanic.after res _
          | pending =>
            simp only at res
            simp only [List.length_append, hl, interrupts_append]
            omega
    | failed e stored len resp =>
      rename_i x
      simp only
      have ht : taken [x] = [] := by rw [taken_one, ReadEvent.bytes, resp]
      by_cases hi : e.kind = .interrupted
      · rw [if_pos hi]
        obtain ⟨k2, b2, got, y, n2, q2, sp2, ev2, e2, v2, hn2, l2, lg2, cons2, res⟩ :=
          readToEnd_view R honest fuel acc (fun i => dst (i + 1)) (fun i => hd (i + 1)) v1
            (by rw [l1]; omega)
        rw [l1] at hn2
        refine ⟨k2, b2, got, y, n2, q2, sp2, [x] ++ ev2, e2, v2, by omega,
          by rw [l2, l1], by rw [lg2, lg1, List.append_assoc], ?_, ?_⟩
        · rw [cons2, taken_append, ht, List.nil_append]
        · have hc : interrupts [x] = 1 := by simp [interrupts, resp, hi]
          cases y with
          | ok _ => exact ⟨res.1, res.2.after _⟩
          | err e => exact SaidErr.after res _
          | unwound => exact SaidPanic.after res _
          | pending =>
            simp only at res
            simp only [interrupts_append, hc]
            omega
      · rw [if_neg hi]
        exact ⟨k1, b1, [], .err e, n1, _, sp1, _, by simp [pure, Except.pure], v1, by omega, l1, lg1,
          by simp [ht], hi, [], x, stored, rfl, resp⟩
    | unwound stored resp =>
      rename_i x
      have ht : taken [x] = [] := by rw [taken_one, ReadEvent.bytes, resp]
      exact ⟨k1, b1, [], .unwound, n1, _, sp1, _, by simp [pure, Except.pure], v1, by omega, l1, lg1,
        by simp [ht], [], x, stored, rfl, resp⟩

theorem idxOf?_some {d : Byte} : ∀ {l : List Byte} {i : Nat}, l.idxOf? d = some i →
    ∃ pre post, l = pre ++ d :: post ∧ d ∉ pre ∧ pre.length = i
  | [], i, h => by simp at h
  | a :: l, i, h => by
    rw [List.idxOf?_cons] at h
    by_cases c : a = d
    · subst c
      simp at h
      exact ⟨[], l, rfl, by simp, by simpa using h⟩
    · have c' : (a == d) = false := by simpa using c
      rw [c'] at h
      simp only [Bool.false_eq_true, if_false, Option.map_eq_some_iff] at h
      obtain ⟨j, hj, rfl⟩ := h
      obtain ⟨pre, post, h1, h2, h3⟩ := idxOf?_some hj
      exact ⟨a :: pre, post, by rw [h1]; rfl, by simp [h2, Ne.symm c], by simp [h3]⟩

theorem idxOf?_none {d : Byte} {l : List Byte} (h : l.idxOf? d = none) : d ∉ l := by
  simpa using h

theorem readUntil_view (R : Reader σ) {t : Target} (delim : Byte) : ∀ (fuel : Nat) {k : Kernel}
    {b : BufReader (σ × List ReadEvent)} {n : Nat} {q sp : List Byte} (acc : List Byte),
    View t k b.buf n q sp → n + fuel * b.buf.len < posBound t b.buf.len →
    ∃ k' b' got x n' q' sp' ev, b.readUntil R.spy t delim fuel k acc = .ok (k', b', acc ++ got, x) ∧
      View t k' b'.buf n' q' sp' ∧ n' ≤ n + fuel * b.buf.len ∧ b'.buf.len = b.buf.len ∧
      b'.inner.2 = b.inner.2 ++ ev ∧ got ++ q' = q ++ taken ev ∧
      match x with
      | .ok () => (∃ line, got = line ++ [delim] ∧ delim ∉ line) ∨
          (delim ∉ got ∧ q' = [] ∧ SaidEof ev)
      | .err e => delim ∉ got ∧ SaidErr ev e
      | .unwound => delim ∉ got ∧ SaidPanic ev
      | .pending => delim ∉ got ∧ fuel ≤ got.length + interrupts ev
  | 0, k, b, n, q, sp, acc, h, _ =>
    ⟨k, b, [], .pending, n, q, sp, [], by simp [BufReader.readUntil, pure, Except.pure], h, by simp,
      rfl, by simp, by simp [taken], by simp⟩
  | fuel + 1, k, b, n, q, sp, acc, h, hb => by
    rw [Nat.add_mul, Nat.one_mul] at hb ⊢
    simp only [BufReader.readUntil]
    obtain ⟨k1, b1, x, n1, q1, sp1, ev1, e1, v1, hn1, l1, lg1, st⟩ := fill_step R h (by omega)
    simp only [e1, bind, Except.bind]
    cases st with
    | got cons eof =>
      simp only
      cases hi : q1.idxOf? delim with
      | some i =>
        obtain ⟨pre, post, h1, h2, h3⟩ := idxOf?_some hi
        obtain ⟨r2, e2, v2, l2, -⟩ := v1.consume (i + 1)
        have htk : q1.take (i + 1) = pre ++ [delim] := by
          rw [h1, ← h3, List.take_append, List.take_of_length_le (by omega)]
          simp
        simp only [BufReader.consume, e2, bind, Except.bind, pure, Except.pure]
        exact ⟨k1, _, q1.take (i + 1), .ok (), n1, _, _, ev1, rfl, v2, by omega, by simp only [l2, l1],
          lg1, by rw [List.take_append_drop, cons], .inl ⟨pre, htk, h2⟩⟩
      | none =>
        have hnot := idxOf?_none hi
        obtain ⟨r2, e2, v2, l2, -⟩ := v1.consume q1.length
        rw [List.drop_length] at v2
        simp only [BufReader.consume, e2, bind, Except.bind, pure, Except.pure]
        by_cases hz : q1.length = 0
        · rw [if_pos hz]
          have hq1 := List.eq_nil_of_length_eq_zero hz
          exact ⟨k1, _, q1, .ok (), n1, [], _, ev1, rfl, v2, by omega, by simp only [l2, l1],
            lg1, by rw [List.append_nil, cons], .inr ⟨hnot, rfl, eof hq1⟩⟩
        · rw [if_neg hz]
          obtain ⟨k2, b2, got, y, n2, q2, sp2, ev2, e2, v2, hn2, l2', lg2, cons2, res⟩ :=
            readUntil_view R delim fuel (b := { b1 with buf := r2 }) (acc ++ q1) v2
              (by simp only [l2, l1]; omega)
          simp only [l2, l1] at hn2 l2'
          refine ⟨k2, b2, q1 ++ got, y, n2, q2, sp2, ev1 ++ ev2, ?_, v2, by omega, l2',
            by rw [lg2, lg1, List.append_assoc], ?_, ?_⟩
          · rw [e2, List.append_assoc]
          · rw [List.append_assoc, cons2, cons, taken_append]; simp
          · cases y with
            | ok _ =>
              rcases res with ⟨line, r1, r2⟩ | ⟨r1, r2, r3⟩
              · exact .inl ⟨q1 ++ line, by rw [r1, List.append_assoc], by simp [hnot, r2]⟩
              · exact .inr ⟨by simp [hnot, r1], r2, r3.after _⟩
            | err e => exact ⟨by simp [hnot, res.1], res.2.after _⟩
            | unwound => exact ⟨by simp [hnot, res.1], res.2.after _⟩
            | pending =>
              obtain ⟨r1, r2⟩ := res
              refine ⟨by simp [hnot, r1], ?_⟩
              simp only [List.length_append, interrupts_append]
              omega
    | failed e stored resp =>
      rename_i x
      simp only
      have ht : taken [x] = [] := by rw [taken_one, ReadEvent.bytes, resp]
      by_cases hi : e.kind = .interrupted
      · rw [if_pos hi]
        obtain ⟨k2, b2, got, y, n2, q2, sp2, ev2, e2, v2, hn2, l2, lg2, cons2, res⟩ :=
          readUntil_view R delim fuel acc v1 (by rw [l1]; omega)
        rw [l1] at hn2
        refine ⟨k2, b2, got, y, n2, q2, sp2, [x] ++ ev2, e2, v2, by omega,
          by rw [l2, l1], by rw [lg2, lg1, List.append_assoc], ?_, ?_⟩
        · rw [cons2, taken_append, ht, List.nil_append]
        · have hc : interrupts [x] = 1 := by simp [interrupts, resp, hi]
          cases y with
          | ok _ =>
            rcases res with r | ⟨r1, r2, r3⟩
            · exact .inl r
            · exact .inr ⟨r1, r2, r3.after _⟩
          | err e => exact ⟨res.1, res.2.after _⟩
          | unwound => exact ⟨res.1, res.2.after _⟩
          | pending =>
            obtain ⟨r1, r2⟩ := res
            refine ⟨r1, ?_⟩
            simp only [interrupts_append, hc]
            omega
      · rw [if_neg hi]
        exact ⟨k1, b1, [], .err e, n1, _, sp1, _, by simp [pure, Except.pure], v1, by omega, l1, lg1,
          by simp [ht], by simp, hi, [], x, stored, rfl, resp⟩
    | unwound stored resp =>
      rename_i x
      have ht : taken [x] = [] := by rw [taken_one, ReadEvent.bytes, resp]
      exact ⟨k1, b1, [], .unwound, n1, _, sp1, _, by simp [pure, Except.pure], v1, by omega, l1, lg1,
        by simp [ht], by simp, [], x, stored, rfl, resp⟩

/-! ### `write_all` -/

theorem WriteFailed.after {ev : List WriteEvent} {e : IoError} (h : WriteFailed ev e)
    (a : List WriteEvent) : WriteFailed (a ++ ev) e := by
  obtain ⟨b, d, h1, h2⟩ := h
  refine ⟨a ++ b, d, h1, ?_⟩
  rcases h2 with ⟨h3, h4⟩ | ⟨h3, h4⟩
  · exact .inl ⟨h3, by rw [h4, List.append_assoc]⟩
  · exact .inr ⟨h3, by rw [h4, List.append_assoc]⟩

theorem WritePanicked.after {ev : List WriteEvent} (h : WritePanicked ev) (a : List WriteEvent) :
    WritePanicked (a ++ ev) := by
  obtain ⟨b, d, h1⟩ := h
  exact ⟨a ++ b, d, by rw [h1, List.append_assoc]⟩

theorem refused_append (a b : List WriteEvent) : refused (a ++ b) = refused a + refused b := by
  simp [refused]

/-- Why a flush that did not end well ended. -/
theorem Flush.why {fuel : Nat} {q q' : List Byte} {ev : List WriteEvent} {y : Out Unit}
    (fl : Flush fuel q ev q' y) :
    match y with
    | .ok _ => True
    | .err e => WriteFailed ev e ∧ e.kind ≠ .interrupted
    | .unwound => WritePanicked ev
    | .pending => fuel ≤ q.length + refused ev := by
  cases fl with
  | done all => trivial
  | running part all => have := part.rounds; simp only; omega
  | stopped r part left why =>
    cases r with
    | ok n =>
      simp only [stopsWith] at why
      obtain ⟨rfl, rfl⟩ := why
      exact ⟨⟨_, _, left, .inl ⟨rfl, rfl⟩⟩, by simp [IoError.ofKind]⟩
    | err e =>
      simp only [stopsWith] at why
      obtain ⟨h1, rfl⟩ := why
      exact ⟨⟨_, _, left, .inr ⟨h1, rfl⟩⟩, h1⟩
    | panic =>
      simp only [stopsWith] at why
      subst why
      exact ⟨_, _, rfl⟩

theorem Pre.q_le {fuel cap : Nat} {q q' : List Byte} {p p' : Bool} {len : Nat}
    {ev : List WriteEvent} (h : Pre fuel cap q p len ev q' p') :
    q'.length ≤ q.length ∧ ((len = cap - q.length → q = []) → cap - q'.length ≤ len → q' = []) := by
  cases h with
  | fits short => exact ⟨Nat.le_refl _, fun h1 h2 => h1 (by omega)⟩
  | flushed long fl => exact ⟨by simp, fun _ _ => rfl⟩

theorem honest_direct (W : Writer σ) (honest : W.Honest) {t : Target} {k k' : Kernel} {fuel : Nat}
    {b b' : BufWriter (σ × List WriteEvent)} {data : List Byte} {m : Nat} {n : Nat}
    {q sp : List Byte} (h : View t k b.buf n q sp)
    (hb : n + b.buf.len < posBound t b.buf.len)
    (e : b.write W.spy t fuel k data = .ok (k', b', .ok m)) : m ≤ data.length := by
  have hl := h.len
  have second : ∀ (b1 : BufWriter (σ × List WriteEvent)) (q1 sp1 : List Byte)
      (_ : View t k b1.buf n q1 sp1) (_ : b1.buf.len = b.buf.len)
      (_ : b1.writeRest W.spy t k data = .ok (k', b', .ok m)), m ≤ data.length := by
    intro b1 q1 sp1 v1 l1 e1
    have hl1 := v1.len
    simp only [BufWriter.writeRest, v1.writeLen, bind, Except.bind] at e1
    by_cases c : data.length ≥ sp1.length
    · rw [if_pos c] at e1
      have hh := honest b1.inner.1 data
      cases hr : W.write b1.inner.1 data with
      | mk s' resp =>
        rw [hr] at hh
        rw [spy_write hr] at e1
        cases resp with
        | panic => cases e1
        | ok m' =>
          simp only [pure, Except.pure, Except.ok.injEq, Prod.mk.injEq, Out.ok.injEq] at e1
          rw [← e1.2.2]
          exact hh
        | err e => cases e1
    · rw [if_neg c] at e1
      have hm : min data.length sp1.length = data.length := by omega
      obtain ⟨k2, r2, e2, -⟩ := v1.write data (by rw [l1]; omega)
      simp only [e2, pure, Except.pure, Except.ok.injEq, Prod.mk.injEq, Out.ok.injEq] at e1
      omega
  simp only [BufWriter.write, h.writeLen, bind, Except.bind] at e
  by_cases c : data.length > sp.length
  · rw [if_pos c] at e
    obtain ⟨b1, y, ev, q1, sp1, e1, v1, l1, p1, lg1, fl, pk⟩ := flush_view W fuel h
    simp only [e1] at e
    cases y with
    | ok u => exact second b1 q1 sp1 v1 l1 e
    | err e' => cases e
    | unwound => cases e
    | pending => cases e
  · rw [if_neg c] at e
    exact second b q sp h rfl e

theorem writeAll_view (W : Writer σ) (honest : W.Honest) {t : Target} (fuel : Nat) :
    ∀ (rounds : Nat) {k : Kernel} {b : BufWriter (σ × List WriteEvent)} {n : Nat}
    {q sp : List Byte} (data : List Byte), View t k b.buf n q sp →
    n + rounds * b.buf.len < posBound t b.buf.len →
    ∃ k' b' acc left x ev n' q' sp',
      b.writeAll W.spy t fuel rounds k data = .ok (k', b', left, x) ∧
      View t k' b'.buf n' q' sp' ∧ n' ≤ n + rounds * b.buf.len ∧ b'.buf.len = b.buf.len ∧
      b'.inner.2 = b.inner.2 ++ ev ∧ data = acc ++ left ∧
      (received ev ++ q').Perm (q ++ acc) ∧
      ((data.length = sp.length → q = []) → received ev ++ q' = q ++ acc) ∧
      match x with
      | .ok () => left = []
      | .err e => left ≠ [] ∧ WriteFailed ev e ∧ e.kind ≠ .interrupted
      | .unwound => left ≠ [] ∧ WritePanicked ev
      | .pending => rounds ≤ acc.length + refused ev ∨ fuel ≤ q.length + refused ev
  | 0, k, b, n, q, sp, data, h, _ =>
    ⟨k, b, [], data, .pending, [], n, q, sp, rfl, h, by simp, rfl, by simp, rfl,
      by simp [received], by simp [received], .inl (by simp)⟩
  | rounds + 1, k, b, n, q, sp, data, h, hb => by
    have hl := h.len
    rw [Nat.add_mul, Nat.one_mul] at hb ⊢
    simp only [BufWriter.writeAll]
    by_cases hz : data.length = 0
    · rw [if_pos hz]
      have hd := List.eq_nil_of_length_eq_zero hz
      exact ⟨k, b, [], data, .ok (), [], n, q, sp, rfl, h, by omega, rfl, by simp, rfl,
        by simp [received], by simp [received], hd⟩
    rw [if_neg hz]
    have hne : data ≠ [] := fun c => hz (by simp [c])
    obtain ⟨k1, b1, x, ev1, n1, q1, sp1, e1, v1, hn1, l1, -, lg1, dw⟩ :=
      write_view W h (by omega) fuel data
    have hl1 := v1.len
    have pm := dw.perm
    have ord := fun nf => dw.order nf
    simp only [e1, bind, Except.bind]
    -- going on with what is left
    have go : ∀ (m : Nat), m ≤ data.length →
        WrOp.accepted (.write data) x = data.take m →
        rounds + 1 ≤ rounds + m + refused ev1 →
        (q1.length ≤ q.length ∨ m = data.length) →
        ((data.length = sp.length → q = []) → data.length - m = sp1.length → q1 = []) →
        ∃ k' b' acc left x ev n' q' sp',
          b1.writeAll W.spy t fuel rounds k1 (data.drop m) = .ok (k', b', left, x) ∧
          View t k' b'.buf n' q' sp' ∧ n' ≤ n + (rounds * b.buf.len + b.buf.len) ∧
          b'.buf.len = b.buf.len ∧
          b'.inner.2 = b.inner.2 ++ ev ∧ data = acc ++ left ∧
          (received ev ++ q').Perm (q ++ acc) ∧
          ((data.length = sp.length → q = []) → received ev ++ q' = q ++ acc) ∧
          match x with
          | .ok () => left = []
          | .err e => left ≠ [] ∧ WriteFailed ev e ∧ e.kind ≠ .interrupted
          | .unwound => left ≠ [] ∧ WritePanicked ev
          | .pending => rounds + 1 ≤ acc.length + refused ev ∨ fuel ≤ q.length + refused ev := by
      intro m hm hacc hr hql hnf
      rw [hacc] at pm ord
      obtain ⟨k2, b2, a2, left, y, ev2, n2, q2, sp2, e2, v2, hn2, l2, lg2, hd2, pm2, ord2, res⟩ :=
        writeAll_view W honest fuel rounds (data.drop m) v1 (by rw [l1]; omega)
      rw [l1] at hn2
      refine ⟨k2, b2, data.take m ++ a2, left, y, ev1 ++ ev2, n2, q2, sp2, e2, v2, by omega,
        by rw [l2, l1], by rw [lg2, lg1, List.append_assoc], ?_, ?_, ?_, ?_⟩
      · rw [List.append_assoc, ← hd2, List.take_append_drop]
      · rw [received_append, List.append_assoc]
        refine (List.Perm.append_left _ pm2).trans ?_
        rw [← List.append_assoc, ← List.append_assoc]
        exact List.Perm.append_right _ pm
      · intro hh
        have o1 := ord (fun hd => hh (by omega))
        have o2 := ord2 (fun hd => hnf hh (by rw [← hd, List.length_drop]))
        rw [received_append, List.append_assoc, o2, ← List.append_assoc, o1, List.append_assoc]
      · cases y with
        | ok _ => exact res
        | err e => exact ⟨res.1, res.2.1.after _, res.2.2⟩
        | unwound => exact ⟨res.1, res.2.after _⟩
        | pending =>
          simp only [List.length_append, refused_append, List.length_take,
            Nat.min_eq_left hm]
          rcases res with r | r
          · exact .inl (by omega)
          · rcases hql with hq | hq
            · exact .inr (by omega)
            · -- nothing is left: the loop ends
              subst hq
              rw [List.drop_length] at e2
              cases rounds with
              | zero => exact .inl (by omega)
              | succ r =>
                simp [BufWriter.writeAll, pure, Except.pure] at e2
    generalize hp1 : b1.panicked = p1 at dw
    cases dw with
    | stopped long fl bad =>
      rename_i y
      have hw := fl.why
      have hacc : WrOp.accepted (.write data) (asNat y) = [] := by
        cases y <;> first | exact absurd rfl bad | rfl
      rw [hacc] at pm ord
      have ord' : (data.length = sp.length → q = []) → received ev1 ++ q1 = q ++ [] :=
        fun hh => ord (fun hd => hh (by omega))
      cases y with
      | ok _ => exact absurd rfl bad
      | err e =>
        simp only [asNat]
        rw [if_neg hw.2]
        exact ⟨k1, b1, [], data, .err e, ev1, n1, q1, sp1, rfl, v1, by omega, l1, lg1, rfl, pm, ord',
          hne, hw⟩
      | unwound =>
        exact ⟨k1, b1, [], data, .unwound, ev1, n1, q1, sp1, rfl, v1, by omega, l1, lg1, rfl, pm,
          ord', hne, hw⟩
      | pending =>
        exact ⟨k1, b1, [], data, .pending, ev1, n1, q1, sp1, rfl, v1, by omega, l1, lg1, rfl, pm,
          ord', .inr hw⟩
    | direct r pre big =>
      rename_i ev0 _
      have ql := pre.q_le
      have hq1 : (data.length = sp.length → q = []) → q1 = [] :=
        fun hh => ql.2 (fun hd => hh (by omega)) big
      have ord' := fun (hh : data.length = sp.length → q = []) => ord (fun hd => hh (by omega))
      cases r with
      | ok m =>
        cases m with
        | zero =>
          refine ⟨k1, b1, [], data, .err (.ofKind .writeZero), _, n1, q1, sp1, rfl, v1, by omega, l1,
            lg1, rfl, ?_, ?_, hne, ?_, ?_⟩
          · simpa [asOut, WrOp.accepted] using pm
          · intro hh; simpa [asOut, WrOp.accepted] using ord' hh
          · exact ⟨_, _, hne, .inl ⟨rfl, rfl⟩⟩
          · simp [IoError.ofKind]
        | succ m =>
          have hm := honest_direct W honest h (by omega) e1
          simp only [asOut]
          rw [if_neg (by omega)]
          exact go (m + 1) hm rfl (by omega) (.inl ql.1)
            (fun hh _ => hq1 hh)
      | err e =>
        simp only [asOut]
        by_cases hi : e.kind = .interrupted
        · rw [if_pos hi]
          have := go 0 (by omega) (by simp [asOut, WrOp.accepted])
            (by simp [refused]) (.inl ql.1)
            (fun hh _ => hq1 hh)
          rw [List.drop_zero] at this
          exact this
        · rw [if_neg hi]
          refine ⟨k1, b1, [], data, .err e, _, n1, q1, sp1, rfl, v1, by omega, l1,
            lg1, rfl, ?_, ?_, hne, ?_, hi⟩
          · simpa [asOut, WrOp.accepted] using pm
          · intro hh; simpa [asOut, WrOp.accepted] using ord' hh
          · exact ⟨_, _, hne, .inr ⟨hi, rfl⟩⟩
      | panic =>
        refine ⟨k1, b1, [], data, .unwound, _, n1, q1, sp1, rfl, v1, by omega, l1,
          lg1, rfl, ?_, ?_, hne, ?_⟩
        · simpa [asOut, WrOp.accepted] using pm
        · intro hh; simpa [asOut, WrOp.accepted] using ord' hh
        · exact ⟨_, _, rfl⟩
    | buffered pre small =>
      rename_i q0
      have hpos : data.length ≠ 0 := hz
      obtain ⟨m, hm⟩ : ∃ m, data.length = m + 1 := ⟨data.length - 1, by omega⟩
      rw [hm]
      simp only
      rw [if_neg (by omega), ← hm]
      have hlq : (q0 ++ data).length = q0.length + data.length := by simp
      refine go data.length (by omega) (by simp [WrOp.accepted]) (by omega)
        (.inr rfl) (fun _ hd => ?_)
      omega

end Vmap
