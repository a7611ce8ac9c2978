import Verif.Spec.CaptureStream
import Mathlib.Tactic.Linarith

/-!
# C47 capture_stream restores the stream
-/

namespace FV3.Capture

/-- Descriptors below `nextFd` and files below `nextFile` are the only ones in use. -/
structure FS.OK (s : FS) : Prop where
  fd_lt : ∀ d f, s.fds d = some f → d < s.nextFd
  file_lt : ∀ d f, s.fds d = some f → f < s.nextFile

theorem bytesWhere_append (c : Nat → Bool) (v w : List (Nat × Bytes)) :
    bytesWhere c (v ++ w) = bytesWhere c v ++ bytesWhere c w := by
  simp [bytesWhere]

theorem bytesWhere_filter (c : Nat → Bool) (w : List (Nat × Bytes)) (fd : Nat) :
    bytesWhere c (w.filter (·.1 ≠ fd)) = bytesWhere (fun d => c d && decide (d ≠ fd)) w := by
  unfold bytesWhere
  rw [List.filter_filter]

theorem bytesWhere_congr {c c' : Nat → Bool} (w : List (Nat × Bytes)) (h : ∀ x ∈ w, c x.1 = c' x.1) :
    bytesWhere c w = bytesWhere c' w := by
  unfold bytesWhere
  rw [List.filter_congr h]

/-- Writes only concern descriptors the program uses. -/
theorem Prog.writes_uses {P : Nat → Prop} (p : Prog) (h : p.Uses P) : ∀ x ∈ p.writes, P x.1 := by
  induction p with
  | write fd b => intro x hx; rw [List.mem_singleton.1 hx]; exact h
  | seq p q ihp ihq =>
    intro x hx
    rcases List.mem_append.1 hx with hx | hx
    · exact ihp h.1 x hx
    · exact ihq h.2 x hx
  | capture fd p ih =>
    intro x hx
    exact ih h.2 x (List.mem_filter.1 hx).1
  | raise => intro x hx; cases hx
  | tryExcept p q ihp _ => exact ihp h.1
  | skip => intro x hx; cases hx

/-- What an exception-free program does. -/
structure Effect (p : Prog) (s : FS) : Prop where
  ok : (p.exec s).1 = true
  captured : (p.exec s).2.1 = p.captures
  good : (p.exec s).2.2.OK
  fds : ∀ d, d < s.nextFd → (p.exec s).2.2.fds d = s.fds d
  nextFd : s.nextFd ≤ (p.exec s).2.2.nextFd
  nextFile : s.nextFile ≤ (p.exec s).2.2.nextFile
  files : ∀ f, f < s.nextFile →
    (p.exec s).2.2.files f = s.files f ++ bytesWhere (fun d => s.fds d = some f) p.writes

theorem Prog.effect (p : Prog) (hc : p.Calm) : ∀ s : FS, s.OK →
    p.Uses (fun d => s.fds d ≠ none) → Effect p s := by
  induction p with
  | write fd b =>
    intro s G hu
    obtain ⟨f, hf⟩ := Option.ne_none_iff_exists'.1 hu
    have e : (Prog.write fd b).exec s
        = (true, [], { s with files := fun g => if g = f then s.files f ++ b else s.files g }) := by
      simp [Prog.exec, Capture.write, hf]
    refine ⟨?_, ?_, ?_, ?_, ?_, ?_, ?_⟩ <;> rw [e]
    · rfl
    · exact ⟨G.fd_lt, G.file_lt⟩
    · intro d _; rfl
    · intro g hg
      simp only [Prog.writes, bytesWhere]
      by_cases h : g = f
      · subst h
        simp [hf]
      · have : ¬ s.fds fd = some g := fun h' => h (by rw [hf] at h'; cases h'; rfl)
        simp [h, this]
  | seq p q ihp ihq =>
    intro s G hu
    have P := ihp hc.1 s G hu.1
    have hq : q.Uses (fun d => (p.exec s).2.2.fds d ≠ none) := by
      have : ∀ d, s.fds d ≠ none → (p.exec s).2.2.fds d ≠ none := by
        intro d hd
        obtain ⟨f, hf⟩ := Option.ne_none_iff_exists'.1 hd
        rw [P.fds d (G.fd_lt d f hf)]; exact hd
      have mono : ∀ (r : Prog), r.Uses (fun d => s.fds d ≠ none) →
          r.Uses (fun d => (p.exec s).2.2.fds d ≠ none) := by
        intro r
        induction r with
        | write fd b => exact this fd
        | seq a b iha ihb => exact fun h => ⟨iha h.1, ihb h.2⟩
        | capture fd a ih => exact fun h => ⟨this fd h.1, ih h.2⟩
        | raise => exact id
        | tryExcept a b iha ihb => exact fun h => ⟨iha h.1, ihb h.2⟩
        | skip => exact id
      exact mono q hu.2
    have Q := ihq hc.2 _ P.good hq
    have e : (Prog.seq p q).exec s
        = ((q.exec (p.exec s).2.2).1, (p.exec s).2.1 ++ (q.exec (p.exec s).2.2).2.1,
           (q.exec (p.exec s).2.2).2.2) := by
      simp [Prog.exec, P.ok]
    refine ⟨?_, ?_, ?_, ?_, ?_, ?_, ?_⟩ <;> rw [e]
    · exact Q.ok
    · show (p.exec s).2.1 ++ (q.exec (p.exec s).2.2).2.1 = _
      rw [P.captured, Q.captured]; rfl
    · exact Q.good
    · intro d hd
      show (q.exec (p.exec s).2.2).2.2.fds d = _
      rw [Q.fds d (lt_of_lt_of_le hd P.nextFd), P.fds d hd]
    · exact le_trans P.nextFd Q.nextFd
    · exact le_trans P.nextFile Q.nextFile
    · intro f hf
      show (q.exec (p.exec s).2.2).2.2.files f = _
      rw [Q.files f (lt_of_lt_of_le hf P.nextFile), P.files f hf, Prog.writes, bytesWhere_append,
        List.append_assoc]
      refine congrArg _ (congrArg _ (bytesWhere_congr _ fun x hx => ?_))
      obtain ⟨g, hg⟩ := Option.ne_none_iff_exists'.1 (Prog.writes_uses q hu.2 x hx)
      rw [P.fds x.1 (G.fd_lt _ g hg)]
  | capture fd body ih =>
    intro s G hu
    obtain ⟨f0, hf0⟩ := Option.ne_none_iff_exists'.1 hu.1
    have hfdlt := G.fd_lt fd f0 hf0
    -- the state in which the body runs
    let s3 : FS :=
      { fds := fun d => if d = fd then some s.nextFile else if d = s.nextFd + 1 then some s.nextFile
          else if d = s.nextFd then some f0 else s.fds d
        files := fun f => if f = s.nextFile then [] else s.files f
        nextFd := s.nextFd + 2
        nextFile := s.nextFile + 1 }
    have hs3 : dup2 (openTemp { s with fds := fun d => if d = s.nextFd then some f0 else s.fds d, nextFd := s.nextFd + 1 }).2 (s.nextFd + 1) fd = s3 := by
      simp [dup2, openTemp, s3]
    have G3 : s3.OK := by
      constructor
      · intro d f h
        show d < s.nextFd + 2
        have h : (if d = fd then some s.nextFile else if d = s.nextFd + 1 then some s.nextFile
          else if d = s.nextFd then some f0 else s.fds d) = some f := h
        split at h
        · omega
        · split at h
          · omega
          · split at h
            · omega
            · have := G.fd_lt d f h; omega
      · intro d f h
        show f < s.nextFile + 1
        have h : (if d = fd then some s.nextFile else if d = s.nextFd + 1 then some s.nextFile
          else if d = s.nextFd then some f0 else s.fds d) = some f := h
        split at h
        · cases h; omega
        · split at h
          · cases h; omega
          · split at h
            · cases h
              have := G.file_lt fd f0 hf0; omega
            · have := G.file_lt d f h; omega
    have hu3 : body.Uses (fun d => s3.fds d ≠ none) := by
      have mono : ∀ (r : Prog), r.Uses (fun d => s.fds d ≠ none) → r.Uses (fun d => s3.fds d ≠ none) := by
        have : ∀ d, s.fds d ≠ none → s3.fds d ≠ none := by
          intro d hd
          show (if d = fd then some s.nextFile else if d = s.nextFd + 1 then some s.nextFile
            else if d = s.nextFd then some f0 else s.fds d) ≠ none
          split
          · simp
          · split
            · simp
            · split
              · simp
              · exact hd
        intro r
        induction r with
        | write fd b => exact this fd
        | seq a b iha ihb => exact fun h => ⟨iha h.1, ihb h.2⟩
        | capture fd a ih => exact fun h => ⟨this fd h.1, ih h.2⟩
        | raise => exact id
        | tryExcept a b iha ihb => exact fun h => ⟨iha h.1, ihb h.2⟩
        | skip => exact id
      exact mono body hu.2
    have B := ih hc s3 G3 hu3
    generalize hx : body.exec s3 = x at B
    obtain ⟨okb, caps, sb⟩ := x
    have hok : okb = true := by have := B.ok; rw [hx] at this; exact this
    have hcap : caps = body.captures := by have := B.captured; rw [hx] at this; exact this
    have hgood : sb.OK := by have := B.good; rw [hx] at this; exact this
    have hfds : ∀ d, d < s.nextFd + 2 → sb.fds d = s3.fds d := by
      have := B.fds; rw [hx] at this; exact this
    have hnf : s.nextFd + 2 ≤ sb.nextFd := by have := B.nextFd; rw [hx] at this; exact this
    have hnl : s.nextFile + 1 ≤ sb.nextFile := by have := B.nextFile; rw [hx] at this; exact this
    have hfiles : ∀ f, f < s.nextFile + 1 →
        sb.files f = s3.files f ++ bytesWhere (fun d => s3.fds d = some f) body.writes := by
      have := B.files; rw [hx] at this; exact this
    subst hok
    have hout : sb.fds (s.nextFd + 1) = some s.nextFile := by
      rw [hfds _ (by omega)]
      show (if s.nextFd + 1 = fd then _ else _) = _
      rw [if_neg (by omega), if_pos rfl]
    have horig : sb.fds s.nextFd = some f0 := by
      rw [hfds _ (by omega)]
      show (if s.nextFd = fd then _ else _) = _
      rw [if_neg (by omega), if_neg (by omega), if_pos rfl]
    have e : (Prog.capture fd body).exec s
        = (true, caps ++ [sb.files s.nextFile],
            close (dup2 sb s.nextFd fd) (s.nextFd + 1)) := by
      have hd : dup s fd = some (s.nextFd, { s with fds := fun d => if d = s.nextFd then some f0 else s.fds d, nextFd := s.nextFd + 1 }) := by
        unfold dup; rw [hf0]
      have ho : (openTemp { s with fds := fun d => if d = s.nextFd then some f0 else s.fds d, nextFd := s.nextFd + 1 }).1 = s.nextFd + 1 := rfl
      unfold Prog.exec
      rw [hd]
      dsimp only
      rw [ho, hs3, hx]
      dsimp only
      rw [if_pos rfl]
      have hr : readAll (dup2 sb s.nextFd fd) (s.nextFd + 1) = sb.files s.nextFile := by
        have : (dup2 sb s.nextFd fd).fds (s.nextFd + 1) = some s.nextFile := by
          show (if s.nextFd + 1 = fd then _ else _) = _
          rw [if_neg (by omega), hout]
        unfold readAll
        rw [this]; rfl
      rw [hr]
    have hfinal : ∀ d, (close (dup2 sb s.nextFd fd) (s.nextFd + 1)).fds d
        = if d = s.nextFd + 1 then none else if d = fd then some f0 else sb.fds d := by
      intro d
      show (if d = s.nextFd + 1 then none else if d = fd then sb.fds s.nextFd else sb.fds d) = _
      rw [horig]
    refine ⟨?_, ?_, ?_, ?_, ?_, ?_, ?_⟩ <;> rw [e]
    · show caps ++ [sb.files s.nextFile] = body.captures ++ [bytesWhere (· = fd) body.writes]
      rw [hcap, hfiles _ (by omega)]
      have h0 : s3.files s.nextFile = [] := by
        show (if s.nextFile = s.nextFile then _ else _) = _
        rw [if_pos rfl]
      rw [h0, List.nil_append]
      refine congrArg (fun b => body.captures ++ [b]) (bytesWhere_congr _ fun y hy => ?_)
      obtain ⟨g, hg⟩ := Option.ne_none_iff_exists'.1 (Prog.writes_uses body hu.2 y hy)
      have hylt := G.fd_lt _ g hg
      have hglt := G.file_lt _ g hg
      have : s3.fds y.1 = if y.1 = fd then some s.nextFile else some g := by
        show (if y.1 = fd then some s.nextFile else if y.1 = s.nextFd + 1 then some s.nextFile
          else if y.1 = s.nextFd then some f0 else s.fds y.1) = _
        split
        · rfl
        · rw [if_neg (by omega), if_neg (by omega), hg]
      rw [this]
      by_cases h : y.1 = fd
      · simp [h]
      · have : ¬ g = s.nextFile := by omega
        simp [h, this]
    · constructor
      · intro d f h
        show d < sb.nextFd
        rw [hfinal] at h
        split at h
        · cases h
        · split at h
          · omega
          · exact hgood.fd_lt d f h
      · intro d f h
        show f < sb.nextFile
        rw [hfinal] at h
        split at h
        · cases h
        · split at h
          · cases h
            have := G.file_lt fd f0 hf0; omega
          · exact hgood.file_lt d f h
    · intro d hd
      rw [hfinal, if_neg (by omega)]
      by_cases h : d = fd
      · rw [if_pos h, h, hf0]
      · rw [if_neg h, hfds d (by omega)]
        show (if d = fd then _ else _) = _
        rw [if_neg h, if_neg (by omega), if_neg (by omega)]
    · show s.nextFd ≤ sb.nextFd
      omega
    · show s.nextFile ≤ sb.nextFile
      omega
    · intro f hf
      show sb.files f = _
      rw [hfiles f (by omega)]
      have h0 : s3.files f = s.files f := by
        show (if f = s.nextFile then _ else _) = _
        rw [if_neg (by omega)]
      rw [h0]
      show _ = s.files f ++ bytesWhere _ (body.writes.filter (·.1 ≠ fd))
      rw [bytesWhere_filter]
      refine congrArg _ (bytesWhere_congr _ fun y hy => ?_)
      obtain ⟨g, hg⟩ := Option.ne_none_iff_exists'.1 (Prog.writes_uses body hu.2 y hy)
      have hylt := G.fd_lt _ g hg
      have : s3.fds y.1 = if y.1 = fd then some s.nextFile else some g := by
        show (if y.1 = fd then some s.nextFile else if y.1 = s.nextFd + 1 then some s.nextFile
          else if y.1 = s.nextFd then some f0 else s.fds y.1) = _
        split
        · rfl
        · rw [if_neg (by omega), if_neg (by omega), hg]
      rw [this, hg]
      by_cases h : y.1 = fd
      · have : ¬ s.nextFile = f := by omega
        simp [h, this]
      · simp [h]
  | raise => exact absurd hc id
  | tryExcept p h ihp ihh =>
    intro s G hu
    have P := ihp hc s G hu.1
    have e : (Prog.tryExcept p h).exec s = p.exec s := by
      simp [Prog.exec, P.ok]
    exact ⟨by rw [e]; exact P.ok, by rw [e]; exact P.captured, by rw [e]; exact P.good,
      by rw [e]; exact P.fds, by rw [e]; exact P.nextFd, by rw [e]; exact P.nextFile,
      by rw [e]; exact P.files⟩
  | skip =>
    intro s G _
    exact ⟨rfl, rfl, G, fun _ _ => rfl, le_refl _, le_refl _, fun f _ => by
      show s.files f = _; simp [Prog.writes, bytesWhere]⟩

/-- **C47.**  A program of writes and capture blocks, nested in any way over any descriptors
that were open at the start, in which no exception occurs: it succeeds; every descriptor that
was open refers to the same file as before; every block captured exactly the bytes its body
wrote to the descriptor (except those captured by blocks inside it); and every file received,
after what it contained before, exactly the bytes written to its descriptors outside capture
blocks for them. -/
theorem C47_capture (p : Prog) (hc : p.Calm) (s : FS) (G : s.OK)
    (hu : p.Uses (fun d => s.fds d ≠ none)) :
    (p.exec s).1 = true ∧
    (∀ d, s.fds d ≠ none → (p.exec s).2.2.fds d = s.fds d) ∧
    (p.exec s).2.1 = p.captures ∧
    (∀ d f, s.fds d = some f →
      (p.exec s).2.2.files f = s.files f ++ bytesWhere (fun d => s.fds d = some f) p.writes) := by
  have E := p.effect hc s G hu
  refine ⟨E.ok, fun d hd => ?_, E.captured, fun d f h => E.files f (G.file_lt d f h)⟩
  obtain ⟨f, hf⟩ := Option.ne_none_iff_exists'.1 hd
  exact E.fds d (G.fd_lt d f hf)

/-- **C47, limit.**  If the body raises, the descriptor is not restored: it goes on referring to
the deleted temporary file, and what is written to it later is lost. -/
theorem C47_exception (s : FS) (G : s.OK) (fd f : Nat) (hfd : s.fds fd = some f) (b : Bytes) :
    let p : Prog := .seq (.tryExcept (.capture fd .raise) .skip) (.write fd b)
    (p.exec s).1 = true ∧ (p.exec s).2.2.fds fd ≠ s.fds fd ∧
    (p.exec s).2.2.files f = s.files f := by
  have h1 := G.fd_lt fd f hfd
  have h2 := G.file_lt fd f hfd
  have a1 : ¬ (fd = s.nextFd + 1) := by omega
  have a2 : ¬ (f = s.nextFile) := by omega
  have a3 : ¬ (s.nextFile = f) := by omega
  simp [Prog.exec, dup, hfd, openTemp, dup2, close, Capture.write, a1, a2, a3]

/-- **C47, limit.**  Every capture block leaves one descriptor open: the duplicate of the
original one is never closed. -/
theorem C47_leak (s : FS) (G : s.OK) (fd f : Nat) (hfd : s.fds fd = some f) :
    s.fds s.nextFd = none ∧ ((Prog.capture fd .skip).exec s).2.2.fds s.nextFd = some f := by
  have h1 := G.fd_lt fd f hfd
  have a1 : ¬ (fd = s.nextFd) := by omega
  have a2 : ¬ (s.nextFd = fd) := by omega
  have a3 : ¬ (s.nextFd = s.nextFd + 1) := by omega
  refine ⟨?_, ?_⟩
  · by_contra h
    obtain ⟨g, hg⟩ := Option.ne_none_iff_exists'.1 h
    exact absurd (G.fd_lt _ g hg) (by omega)
  · simp [Prog.exec, dup, hfd, openTemp, dup2, close, a2]

/-- Standard output and error, both on the terminal (file 0). -/
def exFS : FS := ⟨fun d => if d = 1 ∨ d = 2 then some 0 else none, fun _ => [], 3, 1⟩

theorem exFS_ok : exFS.OK := by
  constructor
  · intro d f h
    have h : (if d = 1 ∨ d = 2 then some 0 else none) = some f := h
    show d < 3
    split at h
    · omega
    · exact absurd h (by simp)
  · intro d f h
    have h : (if d = 1 ∨ d = 2 then some 0 else none) = some f := h
    show f < 1
    split at h
    · cases h; omega
    · exact absurd h (by simp)

/-- Nested capture of both streams. -/
def exProg : Prog :=
  .seq (.write 1 [10]) (.seq (.capture 1 (.seq (.write 1 [11]) (.seq (.capture 2 (.seq (.write 2 [20])
    (.write 1 [12]))) (.seq (.write 2 [21]) (.capture 1 (.write 1 [13])))))) (.write 2 [22]))

example : exProg.Calm ∧ exProg.Uses (fun d => exFS.fds d ≠ none) :=
  ⟨by simp [exProg, Prog.Calm], by simp [exProg, Prog.Uses, exFS]⟩

example : (exProg.exec exFS).2.1 = [[20], [13], [11, 12]] ∧ (exProg.exec exFS).2.2.files 0 = [10, 21, 22] := by
  decide +kernel

end FV3.Capture
