import Verif.Props.JobBoss

set_option autoImplicit false

/-!
C117: a submission does not depend on the submissions before it: it can be repeated, and another one can
follow it.
-/
namespace Pibronic.Props.Resubmit
open Pibronic.Py Pibronic.JobBoss Pibronic.Props.JobBoss

/-- What the set-up leaves in the dictionary when it succeeds. -/
theorem setup_ok_inv {d d' : Dict} {jobs : Nat} (h : setup d = (d', .ok jobs)) :
    ∃ n b total, Asks d n b total ∧ 0 < b ∧ b ≤ n ∧ b ≤ 100000 := by
  unfold setup at h
  split at h
  · simp at h
  · simp at h
  · next n b h1 h2 =>
    split at h
    · simp at h
    split at h
    · simp at h
    next hbn hbm =>
    simp only at h
    split at h
    · simp at h
    next hb =>
    split at h
    · simp at h
    · next total ht =>
      have get : ∀ (d : Dict) k v, d.get k = .ok v → d k = some v := fun d k v hk => by
        unfold Dict.get at hk
        split at hk
        · next e => rw [e, Except.ok.inj hk]
        · cases hk
      refine ⟨n, b, total, ⟨get _ _ _ h1, get _ _ _ h2, ?_⟩, by omega, by omega, ?_⟩
      · have := get _ _ _ ht
        simpa [Dict.set] using this
      · simp only [maxSamplesPerJob] at hbm; omega
    · simp at h
  · simp at h

/-- After a successful set-up, another one changes nothing and asks for the same number of jobs. -/
theorem setup_again {d d' : Dict} {jobs : Nat} (h : setup d = (d', .ok jobs)) :
    setup d' = (d', .ok jobs) := by
  obtain ⟨n, b, total, ha, hb, hbn, hbm⟩ := setup_ok_inv h
  obtain ⟨d1, e1, s1, o1, k1⟩ := setup_ok d n b total ha hb hbn hbm
  rw [setup_of_ok e1] at h
  simp only [Prod.mk.injEq, Except.ok.injEq] at h
  obtain ⟨rfl, rfl⟩ := h
  have ha' : Asks d1 (min n 100000) b (if total = 0 then n else total) :=
    ⟨s1.samples, by rw [k1 _ (by decide)]; exact ha.b, o1⟩
  obtain ⟨d2, e2, s2, o2, k2⟩ := setup_ok d1 _ b _ ha' hb (by omega) hbm
  have hne : (if total = 0 then n else total) ≠ 0 := by split <;> omega
  rw [if_neg hne] at e2 o2
  rw [setup_of_ok e2]
  have : d2 = d1 := by
    funext k
    by_cases hk : k ∈ setupKeys
    · simp only [setupKeys, List.mem_cons, List.not_mem_nil, or_false] at hk
      rcases hk with rfl | rfl | rfl | rfl
      · rw [s1.samples, s2.samples]; simp
      · rw [s1.samplesPerJob, s2.samplesPerJob]; simp
      · rw [s1.numBlocks, s2.numBlocks]; simp
      · rw [o1, o2]
    · exact k2 k hk
  rw [this]

theorem submit_dict (host : Str) (partitions : Str → Bool) (reply : Replies) (d : Dict) :
    (submitJobs host partitions reply d).1 = (setup d).1 := by
  unfold submitJobs
  split
  · next e => rw [e]
  · next e => split <;> rw [e]

/-- C117: when the set-up of a submission succeeded, then whatever became of it (Slurm may have refused a job,
or the cluster may have no such partition) the submission can be repeated: it does what it would have done on
the parameters as they were before the first attempt. -/
theorem C117_repeatable_partial (d : Dict) (n b total : Nat) (h : Asks d n b total) (hb : 0 < b)
    (hbn : b ≤ n) (hbm : b ≤ 100000) (host host' : Str) (partitions partitions' : Str → Bool)
    (reply reply' : Replies) :
    submitJobs host' partitions' reply' (submitJobs host partitions reply d).1 =
      submitJobs host' partitions' reply' d := by
  obtain ⟨d', e, -⟩ := setup_ok d n b total h hb hbn hbm
  have e := setup_of_ok e
  have e' := setup_again e
  rw [submit_dict, e]
  simp only [submitJobs, e, e']

/-- C117: a submission that was refused because of the size of the blocks, or because of a number that is not
one, changes no parameter. -/
theorem C117_refused_changes_nothing (host : Str) (partitions : Str → Bool) (reply : Replies) (d : Dict)
    (h : (setup d).2 = .error .assertion) :
    submitJobs host partitions reply d = (d, [], some .assertion) := by
  have : (setup d).1 = d := by
    unfold setup at h ⊢
    split
    · rfl
    · rfl
    · next n b h1 h2 =>
      simp only [h1, h2] at h
      split
      · rfl
      · next hb =>
        split
        · rfl
        · next hm =>
          rw [if_neg hb, if_neg hm] at h
          simp only at h ⊢
          split at h
          · simp at h
          · next h0 =>
            rw [if_neg h0]
            exfalso
            split at h
            · next e' =>
              unfold Dict.get at e'
              split at e'
              · cases e'
              · cases e'; simp at h
            · simp at h
            · simp at h
    · rfl
  unfold submitJobs
  split
  · next e he =>
    rw [he] at h this
    simp only [Except.error.injEq] at h
    simp only at this
    rw [h, this]
  · next e he => rw [he] at h; simp at h

/-- C117 is false after the other failure: blocks of size zero.  When the size is corrected, only one job is
submitted for each pair, however many the user's number of samples asks for. -/
theorem C117_zero_block_refuted (d : Dict) (n b : Nat) (h : Asks d n 0 0) (hn : 200000 ≤ n) (hb : 0 < b)
    (hbm : b ≤ 100000) (host : Str) (partitions : Str → Bool) (reply : Replies) :
    (submitJobs host partitions reply d).2 = ([], some .zeroDivision) ∧
    (setup ((submitJobs host partitions reply d).1.set c!"block_size" (.int b))).2 = .ok 1 ∧
    (setup (d.set c!"block_size" (.int b))).2 = .ok (n / 100000) ∧ 2 ≤ n / 100000 := by
  have e : setup d = ((d.set c!"number_of_samples_per_job" (.int (min n 100000))).set
      c!"number_of_samples" (.int (min n 100000)), .error .zeroDivision) := by
    simp [setup, Dict.get, h.n, h.b, maxSamplesPerJob]
  refine ⟨by simp [submitJobs, e], ?_, ?_, by omega⟩
  · rw [submit_dict, e]
    have ha : Asks ((((d.set c!"number_of_samples_per_job" (.int (min n 100000))).set
        c!"number_of_samples" (.int (min n 100000)))).set c!"block_size" (.int b)) 100000 b 0 := by
      have : min n 100000 = 100000 := by omega
      refine ⟨?_, ?_, ?_⟩ <;> simp [Dict.set, this, h.overall]
    obtain ⟨d', e, -⟩ := setup_ok _ _ b _ ha hb hbm hbm
    rw [setup_of_ok e]
    simp
  · have ha : Asks (d.set c!"block_size" (.int b)) n b 0 := by
      refine ⟨?_, ?_, ?_⟩ <;> simp [Dict.set, h.n, h.overall]
    obtain ⟨d', e, -⟩ := setup_ok _ _ b _ ha hb (by omega) hbm
    rw [setup_of_ok e]
    have : max 1 (n / 100000) = n / 100000 := by omega
    simp [this]

/-! ### Another object after a submission -/

/-- C117, the part that holds: an object that is created with its number of samples, the size of its blocks
and its number of samples overall submits as many jobs, of as many samples and blocks, after any other
submission as before all of them. -/
theorem C117_next_object_partial (h₁ h₂ : Heap) (cls : SubCls) (host : Str) (input paths : Dict) (n b total : Nat)
    (ha : Asks input n b total) (hp : ∀ k ∈ setupKeys, paths k = none) (hpb : paths c!"block_size" = none)
    (hb : 0 < b) (hbn : b ≤ n) (hbm : b ≤ 100000) :
    ∃ d₁ d₂ jobs, setup ((createObj h₁ cls host input paths).2.params (createObj h₁ cls host input paths).1)
        = (d₁, .ok jobs) ∧
      setup ((createObj h₂ cls host input paths).2.params (createObj h₂ cls host input paths).1)
        = (d₂, .ok jobs) ∧ ∀ k ∈ setupKeys, d₁ k = d₂ k := by
  have key : ∀ h : Heap, Asks ((createObj h cls host input paths).2.params
      (createObj h cls host input paths).1) n b total := fun h => by
    have h1 := hp c!"number_of_samples" (by decide)
    have h2 := hp c!"number_of_samples_overall" (by decide)
    refine ⟨?_, ?_, ?_⟩ <;>
      simp [createObj, Obj.params, Dict.update, ha.n, ha.b, ha.overall, h1, h2, hpb]
  obtain ⟨d₁, e₁, s₁, o₁, -⟩ := setup_ok _ n b total (key h₁) hb hbn hbm
  obtain ⟨d₂, e₂, s₂, o₂, -⟩ := setup_ok _ n b total (key h₂) hb hbn hbm
  refine ⟨d₁, d₂, _, setup_of_ok e₁, setup_of_ok e₂, fun k hk => ?_⟩
  simp only [setupKeys, List.mem_cons, List.not_mem_nil, or_false] at hk
  rcases hk with rfl | rfl | rfl | rfl
  · rw [s₁.samples, s₂.samples]
  · rw [s₁.samplesPerJob, s₂.samplesPerJob]
  · rw [s₁.numBlocks, s₂.numBlocks]
  · rw [o₁, o₂]

/-- C117 is false for an object that is created with its number of samples and the size of its blocks only:
after a submission of `n₁ ≥ 200000` samples an object that asks for `n₂` samples submits as many jobs as the
first one did.  Here its jobs would compute `n₁ / 100000` times the samples it asked for. -/
theorem C117_next_object_refuted (h : Heap) (o : Obj) (n₁ b₁ : Nat) (ha : Asks (h o.cls) n₁ b₁ 0)
    (hb₁ : 0 < b₁) (hn₁ : 200000 ≤ n₁) (hbm₁ : b₁ ≤ 100000) (host : Str) (partitions : Str → Bool)
    (reply : Replies) (input paths : Dict) (n₂ b₂ : Nat)
    (h1 : input c!"number_of_samples" = some (.int n₂)) (h2 : input c!"block_size" = some (.int b₂))
    (h3 : input c!"number_of_samples_overall" = none) (hp : ∀ k ∈ setupKeys, paths k = none)
    (hpb : paths c!"block_size" = none) (hb₂ : 0 < b₂) (hbn₂ : b₂ ≤ n₂) (hn₂ : n₂ ≤ 100000) :
    let h' := (submitObj h o host partitions reply).1
    ∃ d', setup ((createObj h' o.cls host input paths).2.params (createObj h' o.cls host input paths).1) =
      (d', .ok (n₁ / 100000)) ∧ SetUp d' n₂ (n₂ / b₂) ∧ 2 ≤ n₁ / 100000 := by
  intro h'
  obtain ⟨d₁, e₁, s₁, o₁, -⟩ := setup_ok _ n₁ b₁ 0 ha hb₁ (by omega) hbm₁
  have hh : h' o.cls = d₁ := by
    simp only [h', submitObj, if_true]
    rw [submit_dict, setup_of_ok e₁]
  have p1 := hp c!"number_of_samples" (by decide)
  have p2 := hp c!"number_of_samples_overall" (by decide)
  have key : Asks ((createObj h' o.cls host input paths).2.params
      (createObj h' o.cls host input paths).1) n₂ b₂ n₁ := by
    refine ⟨?_, ?_, ?_⟩
    · simp [createObj, Obj.params, Dict.update, h1, p1]
    · simp [createObj, Obj.params, Dict.update, h2, hpb]
    · simp [createObj, Obj.params, Dict.update, Dict.set, h3, p2, hh, o₁]
  obtain ⟨d', e, s, -⟩ := setup_ok _ n₂ b₂ n₁ key hb₂ hbn₂ (by omega)
  have hne : n₁ ≠ 0 := by omega
  have hm : min n₂ 100000 = n₂ := by omega
  rw [if_neg hne, show max 1 (n₁ / 100000) = n₁ / 100000 by omega] at e
  rw [hm] at s
  exact ⟨d', setup_of_ok e, s, by omega⟩

/-! ### The hypotheses can be met -/

/-- A dictionary of numbers. -/
def ask (n b : Nat) : Dict := fun k => if k = c!"number_of_samples" then some (.int n)
  else if k = c!"block_size" then some (.int b) else none

example : Asks ((ask 250000 0).set c!"number_of_samples_overall" (.int 0)) 250000 0 0 :=
  ⟨rfl, rfl, rfl⟩

/-- A first object that asked for 250000 samples, and a second one that asks for 1000: two jobs for each
pair. -/
example : ∃ d', setup ((createObj (submitObj (fun _ => (ask 250000 1000).set c!"number_of_samples_overall"
      (.int 0)) ⟨.pimc, fun _ => none⟩ c!"nlogn" (fun _ => true) (fun _ => none)).1 .pimc c!"nlogn"
      (ask 1000 100) (fun _ => none)).2.params
    (createObj (submitObj (fun _ => (ask 250000 1000).set c!"number_of_samples_overall"
      (.int 0)) ⟨.pimc, fun _ => none⟩ c!"nlogn" (fun _ => true) (fun _ => none)).1 .pimc c!"nlogn"
      (ask 1000 100) (fun _ => none)).1) = (d', .ok 2) ∧ SetUp d' 1000 10 := by
  obtain ⟨d', h, s, -⟩ := C117_next_object_refuted
    (fun _ => (ask 250000 1000).set c!"number_of_samples_overall" (.int 0)) ⟨.pimc, fun _ => none⟩ 250000 1000
    ⟨rfl, rfl, rfl⟩ (by omega) (by omega) (by omega) c!"nlogn" (fun _ => true) (fun _ => none)
    (ask 1000 100) (fun _ => none) 1000 100 rfl rfl rfl (fun _ _ => rfl) rfl (by omega) (by omega)
    (by omega)
  exact ⟨d', h, s⟩

/-- A refused submission. -/
example : (setup ((ask 10 100).set c!"number_of_samples_overall" (.int 0))).2 = .error .assertion := by
  decide +kernel

end Pibronic.Props.Resubmit
