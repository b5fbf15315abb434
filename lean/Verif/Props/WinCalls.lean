import Verif.Proofs.WinCalls
import Verif.Props.WinBytes
/-
C139: the system calls of every function on Windows.
-/
namespace Vmap
open Spec

section
variable {tab : SysTable} {t : Target} {s0 : Vmap.Win}

/-- The arguments of a range call do not overflow. -/
def WinOp.InReach (t : Target) : WinOp → Prop
  | .flush _ _ off len _ => off + len < t.lim
  | .advise _ off len _ => off + len < t.lim
  | .lock _ off len => off + len < t.lim
  | .unlock _ off len => off + len < t.lim
  | _ => True

/-- Calls on maps (helper). -/
theorem win_onMap_did {α : Type} {w w' : WinWorld} {i : Nat} {f : MapMut → Exec (Vmap.Win × α)}
    {P : MapMut → List WinCall → Prop} (h : w.onMap i f = .ok w')
    (hf : ∀ m s' r, w.held i = some (.map m) → f m = .ok (s', r) → ∃ cs, WinDid w.s s' cs ∧ P m cs) :
    ∃ cs, WinDid w.s w'.s cs ∧ (match w.held i with
      | some (.map m) => P m cs
      | _ => cs = []) := by
  unfold WinWorld.onMap at h
  split at h
  · rename_i m hm
    simp only [bind, Except.bind] at h
    split at h
    · cases h
    rename_i x hx
    obtain ⟨s', r⟩ := x
    cases h
    rw [hm]
    exact hf m s' r hm hx
  · rename_i hm
    cases h
    refine ⟨[], rfl, ?_⟩
    split
    · rename_i m h; exact absurd h (hm m)
    · rfl

theorem dec_of {P : Prop} [Decidable P] {b : Bool} (Q : Bool → Prop) (h : Q b) (e : P ↔ b = true) : Q (decide P) := by
  have : decide P = b := by
    cases b
    · exact decide_eq_false (fun h => by cases e.mp h)
    · exact decide_eq_true (e.mpr rfl)
  rw [this]
  exact h

/-- C139: in every state a program can reach, every step makes exactly the calls its kind allows. -/
theorem C139_calls (wf : WinWf t s0) (laid : WinLaid t s0) {w w' : WinWorld} (h : WinReach tab t s0 w) {op : WinOp}
    (sane : op.Sane t w) (inreach : op.InReach t) (st : w.step tab t op = .ok w') :
    ∃ cs, WinDid w.s w'.s cs ∧ op.Makes w w' cs := by
  have v := h.inv wf laid
  have hpg : w.s.page = s0.page := v.keeps.page
  obtain ⟨_, b, -, hb, -, hbits⟩ := v.wf.sizes
  cases op with
  | mapIf o file =>
    simp only [WinWorld.step, bind, Except.bind] at st
    split at st
    · cases st
    rename_i x hx
    obtain ⟨s', r⟩ := x
    obtain ⟨cs, d, hc⟩ := Win.mapIf_did hb (by omega) sane hx
    split at st
    · rename_i hr
      cases hr; cases st
      exact ⟨cs, d, dec_of (WinFileCalls _ _ _ · _) hc (by simp [WinWorld.put, Win.made])⟩
    · rename_i s1 r1 hn hr
      cases hr; cases st
      have : Win.made r = false := by
        unfold Win.made
        split
        · rename_i m; exact absurd rfl (hn m)
        · rfl
      rw [this] at hc
      exact ⟨cs, d, dec_of (WinFileCalls _ _ _ · _) hc (by simp [WinWorld.run])⟩
  | alloc o =>
    simp only [WinWorld.step, bind, Except.bind] at st
    split at st
    · cases st
    rename_i x hx
    obtain ⟨s', r⟩ := x
    obtain ⟨cs, l, d, hl, hc⟩ := Win.alloc_did v.wf sane hx
    cases r <;> cases st
    · exact ⟨cs, d, l, hl, dec_of (ViewCalls _ _ _ _ _ · _) hc (by simp [WinWorld.run, Except.toBool])⟩
    · exact ⟨cs, d, l, hl, dec_of (ViewCalls _ _ _ _ _ · _) hc (by simp [WinWorld.put, Except.toBool])⟩
  | newRing hint =>
    simp only [WinWorld.step, bind, Except.bind] at st
    split at st
    · cases st
    rename_i x hx
    obtain ⟨s', r⟩ := x
    obtain ⟨cs, d, hc⟩ := Win.ringNew_did v.wf sane hx
    cases r <;> cases st
    · exact ⟨cs, d, dec_of (WinRingCalls _ _ · _) hc (by simp [WinWorld.run, Except.toBool])⟩
    · exact ⟨cs, d, dec_of (WinRingCalls _ _ · _) hc (by simp [WinWorld.put, Except.toBool])⟩
  | newInf hint =>
    simp only [WinWorld.step, bind, Except.bind] at st
    split at st
    · cases st
    rename_i x hx
    obtain ⟨s', r⟩ := x
    obtain ⟨cs, d, hc⟩ := Win.infNew_did v.wf sane hx
    cases r <;> cases st
    · exact ⟨cs, d, dec_of (WinRingCalls _ _ · _) hc (by simp [WinWorld.run, Except.toBool])⟩
    · exact ⟨cs, d, dec_of (WinRingCalls _ _ · _) hc (by simp [WinWorld.put, Except.toBool])⟩
  | drop i =>
    simp only [WinWorld.step] at st
    simp only [WinOp.Makes]
    split at st
    · rename_i m hm
      rw [hm]
      simp only [bind, Except.bind] at st
      split at st
      · cases st
      rename_i s' hs
      cases st
      dsimp only
      by_cases h0 : m.len = 0
      · rw [Win.dropMap, if_neg (by omega)] at hs
        cases hs
        exact ⟨[], rfl, by rw [if_pos h0]⟩
      · obtain ⟨x, hx, mx⟩ := v.there i _ hm
        rw [← v.keeps.gran] at mx
        have d := Win.dropMap_did v.wf v.laid (by omega) hx mx hs
        refine ⟨_, d, ?_⟩
        rw [if_neg h0]
        exact ⟨x.base, mx.1, mx.2.1, mx.2.2.1, rfl⟩
    · rename_i r hr
      rw [hr]
      cases st
      obtain ⟨v1, v2, -, m2, -, b2, -⟩ := v.there i _ hr
      exact ⟨_, Win.unmapRing_did v.wf v.laid m2 b2, rfl⟩
    · rename_i r hr
      rw [hr]
      cases st
      obtain ⟨v1, v2, -, m2, -, b2, -⟩ := v.there i _ hr
      exact ⟨_, Win.unmapRing_did v.wf v.laid m2 b2, rfl⟩
    · rename_i hn
      cases st
      rw [hn]
      exact ⟨[], rfl, rfl⟩
  | flush i file off len mode =>
    refine win_onMap_did st fun m s' r hm hr => ?_
    by_cases hin : off + len ≤ m.len
    · obtain ⟨_, a, l, -, -, pages, -, -, g, -⟩ := C108_range wf laid h hm hin
      rw [g file mode] at hr
      rw [← hpg] at pages
      have hs : (w.s.flush a file l mode).1 = s' := by rw [Except.ok.inj hr]
      simp only [if_pos hin]
      rcases w.s.flush_did a file l mode with d | ⟨hmode, d⟩ <;> rw [hs] at d
      · exact ⟨_, d, a, l, pages, .inl rfl⟩
      · exact ⟨_, d, a, l, pages, .inr ⟨hmode, rfl⟩⟩
    · rw [(C108_rejected_partial (by omega) inreach).1 file mode] at hr
      cases hr
      exact ⟨[], rfl, by rw [if_neg hin]⟩
  | advise i off len adv =>
    have := win_onMap_did (P := fun _ cs => cs = []) st fun m s' r hm hr => by
      by_cases hin : off + len ≤ m.len
      · obtain ⟨_, a, l, -, -, pages, -, -, -, g, -⟩ := C108_range wf laid h hm hin
        rw [g adv] at hr
        cases hr
        exact ⟨[], rfl, rfl⟩
      · rw [(C108_rejected_partial (by omega) inreach).2.1 adv] at hr
        cases hr
        exact ⟨[], rfl, rfl⟩
    obtain ⟨cs, d, hc⟩ := this
    refine ⟨cs, d, ?_⟩
    split at hc <;> exact hc
  | lock i off len =>
    refine win_onMap_did st fun m s' r hm hr => ?_
    by_cases hin : off + len ≤ m.len
    · obtain ⟨_, a, l, -, -, pages, -, -, -, -, g, -⟩ := C108_range wf laid h hm hin
      rw [g] at hr
      rw [← hpg] at pages
      have hs : (w.s.lock a l).1 = s' := by rw [Except.ok.inj hr]
      simp only [if_pos hin]
      exact ⟨[.virtualLock a l], by rw [← hs]; exact Win.lock_log .., a, l, pages, rfl⟩
    · rw [(C108_rejected_partial (by omega) inreach).2.2.1] at hr
      cases hr
      exact ⟨[], rfl, by rw [if_neg hin]⟩
  | unlock i off len =>
    refine win_onMap_did st fun m s' r hm hr => ?_
    by_cases hin : off + len ≤ m.len
    · obtain ⟨_, a, l, -, -, pages, -, -, -, -, -, g, -⟩ := C108_range wf laid h hm hin
      rw [g] at hr
      rw [← hpg] at pages
      have hs : (w.s.unlock a l).1 = s' := by rw [Except.ok.inj hr]
      simp only [if_pos hin]
      exact ⟨[.virtualUnlock a l], by rw [← hs]; exact Win.unlock_log .., a, l, pages, rfl⟩
    · rw [(C108_rejected_partial (by omega) inreach).2.2.2] at hr
      cases hr
      exact ⟨[], rfl, by rw [if_neg hin]⟩
  | intoMapMut i =>
    refine win_onMap_did st fun m s' r hm hr => ?_
    obtain ⟨_, a, l, -, -, pages, -, -, -, -, -, -, g⟩ := C108_range wf laid h hm (off := 0) (len := m.len) (by omega)
    rw [(g rfl rfl).2.2.2.2.2] at hr
    rw [← hpg] at pages
    have hs : (w.s.protect a l .readWrite).1 = s' := (Prod.mk.inj (Except.ok.inj hr)).1
    exact ⟨[.virtualProtect a l .readwrite], by rw [← hs]; exact Win.protect_log .., a, l, pages, rfl⟩
  | intoMap i =>
    refine win_onMap_did st fun m s' r hm hr => ?_
    obtain ⟨_, a, l, -, -, pages, -, -, -, -, -, -, g⟩ := C108_range wf laid h hm (off := 0) (len := m.len) (by omega)
    rw [(g rfl rfl).2.2.2.2.1] at hr
    rw [← hpg] at pages
    have hs : (w.s.protect a l .readWrite).1 = s' := (Prod.mk.inj (Except.ok.inj hr)).1
    exact ⟨[.virtualProtect a l .readwrite], by rw [← hs]; exact Win.protect_log .., a, l, pages, rfl⟩
  | set i idx x =>
    refine ⟨[], ?_, rfl⟩
    simp only [WinWorld.step, bind, Except.bind] at st
    split at st
    · split at st
      · cases st
      rename_i s' hs
      cases st
      simp only [Win.set] at hs
      split at hs
      · exact Win.store_log hs
      · cases hs
    · cases st; rfl
  | ringUse i rpos wpos mem =>
    refine ⟨[], ?_, rfl⟩
    simp only [WinWorld.step] at st
    split at st <;> cases st
    · simp only [WinWorld.upd, WinWorld.fill]
      split <;> rfl
    · rfl
  | infUse i rlen wpos mem =>
    refine ⟨[], ?_, rfl⟩
    simp only [WinWorld.step] at st
    split at st <;> cases st
    · simp only [WinWorld.upd, WinWorld.fill]
      split <;> rfl
    · rfl
  | files f d => cases st; exact ⟨[], rfl, rfl⟩

/-- Six attempts take at most thirty calls (helper). -/
theorem Spec.RingTries.length {h len : Nat} : ∀ {n : Nat} {b : Bool} {cs : List WinCall}, RingTries h len n b cs →
    cs.length ≤ 5 * n := by
  intro n b cs ht
  have one : ∀ {cs : List WinCall}, TryFails h len cs → cs.length ≤ 5 := by
    intro cs hc
    obtain ⟨pg, rfl | rfl⟩ := hc <;> simp
  induction ht with
  | noRoom => simp; omega
  | done pg => simp; omega
  | last f => have := one f; omega
  | again f _ ih => have := one f; simp only [List.length_append]; omega

/-- C139: so no function makes more than 32 system calls. -/
theorem C139_bounded {w w' : WinWorld} {op : WinOp} {cs : List WinCall} (h : op.Makes w w' cs) : cs.length ≤ 32 := by
  have view : ∀ {f p a b c all} {cs : List WinCall}, ViewCalls f p a b c all cs → cs.length ≤ 3 := by
    intro f p a b c all cs hc
    obtain ⟨_, _, _, _, _, _, _, -, -, -, ⟨rfl, -⟩ | rfl⟩ := hc <;> simp
  have ring : ∀ {u hint all} {cs : List WinCall}, WinRingCalls u hint all cs → cs.length ≤ 32 := by
    intro u hint all cs hc
    obtain ⟨_, _, _, -, -, -, -, ⟨rfl, -⟩ | ⟨_, ds, ht, rfl⟩⟩ := hc
    · simp
    · have := ht.length
      simp only [List.cons_append, List.length_cons, List.length_append, List.length_nil]
      omega
  have nil : ∀ {cs : List WinCall}, cs = [] → cs.length ≤ 32 := by rintro _ rfl; simp
  cases op with
  | mapIf o file =>
    obtain ⟨tr, rs, mp, rfl, h1, h2, h3⟩ := h
    have t1 : tr.length ≤ 1 := by rcases h1 with rfl | ⟨-, rfl⟩ <;> simp
    have t2 : rs.length ≤ 1 := by rcases h2 with rfl | ⟨_, -, rfl⟩ <;> simp
    have t3 : mp.length ≤ 3 := by
      rcases h3 with ⟨rfl, -⟩ | ⟨_, -, hv⟩
      · simp
      · exact view hv
    simp only [List.length_cons, List.length_append]
    omega
  | alloc o => obtain ⟨_, -, hv⟩ := h; have := view hv; omega
  | newRing hint => exact ring h
  | newInf hint => exact ring h
  | drop i =>
    simp only [WinOp.Makes] at h
    split at h
    · split at h
      · exact nil h
      · obtain ⟨_, -, -, -, rfl⟩ := h; simp
    · rw [h]; simp
    · rw [h]; simp
    · exact nil h
  | flush i file off len mode =>
    simp only [WinOp.Makes] at h
    split at h
    · split at h
      · obtain ⟨_, _, -, rfl | ⟨-, rfl⟩⟩ := h <;> simp
      · exact nil h
    · exact nil h
  | advise => exact nil h
  | lock i off len =>
    simp only [WinOp.Makes] at h
    split at h
    · split at h
      · obtain ⟨_, _, -, rfl⟩ := h; simp
      · exact nil h
    · exact nil h
  | unlock i off len =>
    simp only [WinOp.Makes] at h
    split at h
    · split at h
      · obtain ⟨_, _, -, rfl⟩ := h; simp
      · exact nil h
    · exact nil h
  | intoMapMut i =>
    simp only [WinOp.Makes] at h
    split at h
    · obtain ⟨_, _, -, rfl⟩ := h; simp
    · exact nil h
  | intoMap i =>
    simp only [WinOp.Makes] at h
    split at h
    · obtain ⟨_, _, -, rfl⟩ := h; simp
    · exact nil h
  | set => exact nil h
  | ringUse => exact nil h
  | infUse => exact nil h
  | files => exact nil h

/-- The calls of a step, by computation (helper for the examples). -/
def winCallsOf (w : WinWorld) (op : WinOp) : List WinCall :=
  ((w.next! op).s.log.take ((w.next! op).s.log.length - w.s.log.length)).reverse

/-- Non-vacuity of C139: mapping part of a file and dropping the map. -/
example : winCallsOf (WinWorld.start (winDemo [])) (.mapIf ((Options.new.setOffset 70000).setLen (.exact 3000)) 7) =
      [.getFileInfo 7, .createFileMapping (some 7) .readonly 0 0,
       .mapViewOfFileEx 1 ⟨true, false, false, false⟩ 0 65536 7464 0, .closeHandle 1] ∧
    winCallsOf winTwo (.drop 1) = [.unmapViewOfFile 73400320] ∧
    winCallsOf winTwo (.flush 0 7 5000 10 .sync) = [.flushViewOfFile 69210112 4096, .flushFileBuffers 7] := by
  decide +kernel

/-- Non-vacuity of C139: a ring of which the second half cannot be viewed the first time. -/
example : winCallsOf (WinWorld.start (winDemo [4])) (.newRing 1000) =
    [.createFileMapping none .readwrite 0 131072,
     .virtualAlloc 131072, .virtualFree 68157440, .mapViewOfFileEx 1 ⟨true, true, false, false⟩ 0 0 65536 68157440,
     .mapViewOfFileEx 1 ⟨true, true, false, false⟩ 0 0 65536 68222976, .unmapViewOfFile 68157440,
     .virtualAlloc 131072, .virtualFree 73400320, .mapViewOfFileEx 1 ⟨true, true, false, false⟩ 0 0 65536 73400320,
     .mapViewOfFileEx 1 ⟨true, true, false, false⟩ 0 0 65536 73465856, .closeHandle 1] := by
  decide +kernel

/-- Non-vacuity of C139: the theorem applies to the step above, a drop. -/
example : ∃ cs w', winTwo.step winTab ⟨.w64, true⟩ (.drop 1) = .ok w' ∧ WinDid winTwo.s w'.s cs ∧
    cs = [.unmapViewOfFile 73400320] := by
  have st := WinWorld.next!_eq (w := winTwo) (op := .drop 1) (by decide +kernel)
  obtain ⟨r, -⟩ := winTwo_maps.2.known (winDemo_wf []) (winDemo_laid [])
  obtain ⟨cs, d, hm⟩ := C139_calls (winDemo_wf []) (winDemo_laid []) r (op := .drop 1) trivial trivial st
  have hh : winTwo.held 1 = some (.map ⟨73404784, 3000⟩) := winHeld_map (by decide +kernel)
  simp only [WinOp.Makes, hh, if_neg (show ¬ (3000 : Nat) = 0 by decide)] at hm
  obtain ⟨a, ⟨k, hk⟩, h1, h2, hc⟩ := hm
  have hg : winTwo.s.gran = 65536 := by decide +kernel
  rw [hg] at hk h2
  refine ⟨cs, _, st, d, ?_⟩
  rw [hc]
  congr 2
  omega

end
end Vmap
