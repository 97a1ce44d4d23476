import Verif.Launcher.BatchJobs
/-!
# C88: where the batch-system launchers do not do what is asked
-/
namespace IPP.Batch
open IPP.Shell (Str)

/-- the default configuration of a batch system, with a command -/
def config (s : Sys) : Config :=
  { workDir := l!".", submit := submitCmd s, delete := deleteCmd s, signal := signalCmd s, template := [], templateFile := none, queue := [], outputFile := l!"/log/e.log", account := [], qos := [], timelimit := [], options := [],
    profileDir := l!"/home/u/.ipython/profile_default", clusterId := l!"c1", namesp := [], environment := [], program := [l!"ipengine"], programArgs := [l!"--debug"] }

/-- **C88 fails for LSF: the job does not learn its profile.** `start()` passes the environment of this process on, without `get_env()`: nothing that it does depends on the profile directory (nor on `environment`), so controller and engines of an LSF cluster look in the default profile. -/
theorem lsf_profile_violated {dumps : Dict → Str} {l : L} (hr : Reach dumps l) (hs : l.sys = .lsf) (cmd : Str) (hcmd : l.cfg.submit = [cmd]) (ht : l.template = []) (hf : l.cfg.templateFile = none)
    (hns : ∀ p ∈ l.namesp, p.1 ∉ names) (k : Nat) (out : Option Str) (dir : Str) :
    (start dumps k out (setProfile dir l)).2.1 = (start dumps k out l).2.1 := by
  have hr2 : Reach dumps (setProfile dir l) := Reach.step hr (.setProfile dir)
  have h1 := start_commands_lsf hr hs k out _ cmd hcmd (script_exact hr _ ht hf hns)
  have h2 := start_commands_lsf hr2 (show (setProfile dir l).sys = .lsf from hs) k out _ cmd (show (setProfile dir l).cfg.submit = [cmd] from hcmd)
    (script_exact (l := setProfile dir l) hr2 (if (setProfile dir l).role = .controller then 1 else k) ht hf hns)
  rw [h1, h2]
  rfl

/-- **C88 fails for LSF: a submit command of several words.** Only its first two words are used, and the second instead of the script: the job is not submitted. -/
theorem lsf_submit_violated : ((start (fun _ => []) 4 (some l!"Job <7> is submitted.") (init .lsf .engines { config .lsf with submit := [l!"bsub", l!"-K"] })).2.1.getLast?) = some (.shell l!"bsub<\"-K\"") := by decide +kernel

/-- **C88 fails for HTCondor: the job does not learn its profile and its cluster.** The script does not depend on them, and has no `getenv` line. -/
theorem condor_env_violated (l : L) (hs : l.sys = .condor) (k : Nat) (dir i : Str) : specScript (setCluster i (setProfile dir l)) k = specScript l k ∧
    ∃ lines, specScript l k = joinNl lines ∧ ∀ line ∈ lines, ¬ passesEnv .condor line := by
  refine ⟨?_, ?_⟩
  · cases l with
    | mk sys role cfg n queue outputFile profileDir clusterId namesp template batchFile context jobId state =>
      simp only at hs
      subst hs
      cases role <;> rfl
  · refine ⟨_, rfl, ?_⟩
    intro line hl
    obtain ⟨ps, hp, rfl⟩ := List.mem_map.1 hl
    rw [hs] at hp
    unfold passesEnv
    cases hr : l.role <;> rw [hr] at hp <;> simp only [specLines, List.mem_cons, List.not_mem_nil, or_false] at hp <;>
      rcases hp with rfl | rfl | rfl | rfl | rfl | rfl | rfl | rfl <;> intro h <;> cases h

/-- **C88 fails for SGE: the output file.** The lines for it are those of PBS, which are comments to SGE: without them the script is the one for no output file. -/
theorem sge_output_violated (r : Role) (q a k w : Bool) (v : Piece → Str) (hv : ∀ t, v (.t t) = t) :
    ((specLines .sge r q true a k w).map (·.flatMap v)).filter (fun line => line.take 4 ≠ l!"#PBS") =
    ((specLines .sge r q false a k w).map (·.flatMap v)).filter (fun line => line.take 4 ≠ l!"#PBS") := by
  cases r <;> cases q <;> simp [specLines, only, hv]

/-- **C88 fails for Slurm: the option `options` ("Extra Slurm options").** No default script depends on it. -/
theorem slurm_options_violated (dumps : Dict → Str) (r : Role) (c : Config) (opt : Str) (k : Nat) (ht : c.template = []) (hf : c.templateFile = none) (hns : ∀ p ∈ c.namesp, p.1 ∉ names) :
    (writeScript dumps k (init .slurm r { c with options := opt })).2 = (writeScript dumps k (init .slurm r c)).2 := by
  have h1 : (writeScript dumps k (init .slurm r c)).2 = _ := script_exact (Reach.init .slurm r c) k ht hf hns
  have h2 : (writeScript dumps k (init .slurm r { c with options := opt })).2 = _ := script_exact (Reach.init .slurm r { c with options := opt }) k ht hf hns
  rw [h1, h2]
  rfl

/-- **C88 fails for HTCondor: signals.** There is no signal command: a program without a name is run. -/
theorem condor_signal_violated (sig : Str) (l : L) (h : l.cfg.signal = signalCmd .condor) : signal sig l = [.run [[], sig, l.jobId] none] := by
  simp [signal, h, signalCmd]

/-- **C88 fails if the output of the submit command has no number.** The job was submitted, but the start fails, and `stop()` then runs the delete command with the id of the job before, or with none. -/
theorem lost_job_violated {dumps : Dict → Str} {l : L} (k : Nat) (out : Str) (text : Str) (hw : (writeScript dumps (if l.role = .controller then 1 else k) l).2 = some text)
    (hi : ¬ ∃ i, IsJobId l.sys out i) : (start dumps k (some out) l).2.2 = .error .noJobId ∧ (start dumps k (some out) l).2.1.length = 2 ∧ (start dumps k (some out) l).1.jobId = l.jobId := by
  refine ⟨(start_result k out text hw []).2.2 hi, ?_⟩
  rw [writeScript_eq] at hw
  unfold start
  rw [writeScript_eq]
  generalize chooseTemplate (ready dumps (if l.role = .controller then 1 else k) l) = c at hw
  cases c with
  | none => cases hw
  | some t =>
    dsimp only at hw ⊢
    rw [hw]
    dsimp only
    generalize hm : ({ ready dumps (if l.role = .controller then 1 else k) l with template := t } : L) = m
    have hsys : m.sys = l.sys := by rw [← hm]; rfl
    have hj : m.jobId = l.jobId := by rw [← hm]; rfl
    have hst : (started out m).1 = m := by
      cases hs : (started out m).2 with
      | ok i => exact absurd ⟨i, hsys ▸ started_ok.1 hs⟩ hi
      | error e => exact (started_error hs).2
    unfold submit
    by_cases h : m.sys = .lsf
    · rw [if_pos h]
      exact ⟨rfl, by rw [Option.getD_some, hst, hj]⟩
    · rw [if_neg h]
      exact ⟨rfl, by rw [hst, hj]⟩

/-- **C88 fails if the queue is set after the first start**: the template is kept, and has no line for the queue. -/
theorem late_queue_violated : (writeScript (fun _ => []) 2 (setQueue l!"long" (start (fun _ => []) 2 (some l!"7.server") (init .pbs .engines (config .pbs))).1)).2 =
    some l!"#!/bin/sh\n#PBS -t 1-2\n#PBS -j oe\n#PBS -o /log/e.log\n#PBS -V\n#PBS -N ipengine\nipengine --debug\n" := by decide +kernel

/-- the arguments of HTCondor's old syntax: separated by blanks, without quotes -/
def splitBlanks : Str → List Str
  | [] => [[]]
  | c :: r => if c = 32 then [] :: splitBlanks r else match splitBlanks r with
    | [] => [[c]]
    | w :: ws => (c :: w) :: ws

/-- **C88 fails for an HTCondor controller: arguments with blanks.** The script quotes them for a shell, but HTCondor does not use one. -/
theorem condor_arguments_violated : ∃ ws, splitBlanks (shlexJoin ws) ≠ ws := ⟨[l!"--log=a b"], by decide +kernel⟩

/-! ## examples -/

example : (writeScript (fun _ => []) 16 (init .slurm .engines { config .slurm with queue := l!"long", account := l!"phys" })).2 =
    some l!"#!/bin/sh\n#SBATCH --ntasks=16\n#SBATCH --account=phys\n#SBATCH --partition=long\n#SBATCH --output=/log/e.log\n#SBATCH --export=ALL\n#SBATCH --job-name=ipengine-c1\nsrun ipengine --debug\n" := by decide +kernel
example : (writeScript (fun _ => []) 1 (init .slurm .controller (config .slurm))).2 =
    some l!"#!/bin/sh\n#SBATCH --output=/log/e.log\n#SBATCH --export=ALL\n#SBATCH --job-name=ipcontroller-c1\n#SBATCH --ntasks=1\nipengine --debug\n" := by decide +kernel
example : (start (fun _ => []) 16 (some l!"Submitted batch job 4217\n") (init .slurm .engines (config .slurm))).2.2.toOption = some l!"4217" := by decide +kernel
example : (start (fun _ => []) 16 (some l!"Submitting job(s)...\n3 job(s) submitted to cluster 51.\n") (init .condor .engines (config .condor))).2.2.toOption = some l!"51" := by decide +kernel
example : IsJobId .condor l!"Submitting job(s)...\n3 job(s) submitted to cluster 51.\n" l!"51" := (job_id_exact _ _ _).1 (by decide +kernel)
example : ¬ ∃ i, IsJobId .pbs l!"queued" i := by
  rintro ⟨i, h⟩
  have := (job_id_exact _ _ _).2 h
  have h2 : (jobRe .pbs).search l!"queued" = none := by decide +kernel
  rw [h2] at this
  cases this
example : (stop true ([Op.reload, .setQueue l!"x", .signal l!"2"].foldl (step fun _ => []) (start (fun _ => []) 4 (some l!"77.server\n") (init .pbs .engines (config .pbs))).1)).2.1 = [.run [l!"qdel", l!"77"] none, .stopped l!"77"] := by decide +kernel
/-- a template of the user, with a variable of its own -/
example : (writeScript (fun _ => []) 3 (init .pbs .engines { config .pbs with template := l!"#PBS -l walltime={wall}\nmpiexec -n {n} {program_and_args}", namesp := [(l!"wall", l!"1:00")] })).2 =
    some l!"#PBS -l walltime=1:00\nmpiexec -n 3 ipengine --debug" := by decide +kernel

end IPP.Batch
