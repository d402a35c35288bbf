import Verif.Spec.Config
import Verif.Props.C14
import Verif.Props.C25

/-!
# C68: settings

The value of every setting is the documented one and does not change once it was read; broken files are refused; what the
settings lead to.
-/

namespace GJ

open Spec

/-! ## Values -/

theorem res_map_ok {α β : Type} (f : α → β) (a : α) : (Except.map f (Except.ok a : Res α)) = .ok (f a) := rfl

theorem Proc.yaml_loaded {α β : Type} {p : Proc} {now : Now} {c : Conf} (h : (p.conf now).2 = .ok c)
    (get : Yaml → Res (Option α)) (d : α) (rest : α → Res β) {x : Option α} (hx : get c.yaml = .ok x) :
    (p.yaml now get d rest).2 = rest (x.getD d) := by
  rw [Proc.yaml]
  generalize p.conf now = r at h
  obtain ⟨p', r⟩ := r
  simp only at h
  subst h
  simp only [hx]
  rfl

theorem Proc.once_first {p : Proc} {o : Opt} (h : p.memo o = none) (body : Proc × Res CfgVal) :
    (p.once o body).2 = body.2 := by
  obtain ⟨p', r⟩ := body
  rw [Proc.once.eq_def, h]
  cases r <;> rfl

/-- **C68, precedence.**  The first time a setting is read, with a file whose entries have their types and with no negative
number of threads, it has its documented value: the environment variable, else the resource, else the entry of the file,
else the default. -/
theorem C68_precedence_partial (p : Proc) (now : Now) (o : Opt) (c : Conf) (first : p.memo o = none)
    (file : (p.conf now).2 = .ok c) (typed : WellTyped c.yaml)
    (threads : ∀ n, c.yaml.int "threads" = .ok (some n) → 0 ≤ n ∧ n < 2 ^ 64) (directory : Option String)
    (dir : c.yaml.text "cache.directory" = .ok directory) :
    (p.option now o).2 = setting now c.yaml (documented (directory.getD "") o) := by
  obtain ⟨ti, tb, tt⟩ := typed
  cases o
  case type =>
    obtain ⟨x, hx⟩ := tt "type"
    rw [Proc.option, Proc.yaml_loaded file _ _ _ hx]
    simp only [setting, documented, entry, hx, Option.bind_none, res_map_ok]
    cases x <;> rfl
  case uri =>
    obtain ⟨x, hx⟩ := tt "uri"
    rw [Proc.option, Proc.yaml_loaded file _ _ _ hx]
    simp only [setting, documented, entry, hx, Option.bind_none, res_map_ok]
    cases x <;> rfl
  case cacheDirectory =>
    obtain ⟨x, hx⟩ := tt "cache.directory"
    rw [Proc.option, Proc.yaml_loaded file _ _ _ hx]
    simp only [setting, documented, entry, hx, Option.bind_none, res_map_ok]
    cases x <;> rfl
  case pluginSelect =>
    obtain ⟨x, hx⟩ := tt "plugin.select"
    rw [Proc.option, Proc.yaml_loaded file _ _ _ hx]
    simp only [setting, documented, entry, hx, Option.bind_none, res_map_ok]
    cases x <;> rfl
  case inefficient =>
    obtain ⟨x, hx⟩ := tb "inefficientExtraction"
    rw [Proc.option, Proc.yaml_loaded file _ _ _ hx]
    simp only [setting, documented, entry, hx, Option.bind_none, res_map_ok]
    cases x <;> rfl
  case forwardExtraction =>
    obtain ⟨x, hx⟩ := tb "forwardExtraction"
    rw [Proc.option, Proc.yaml_loaded file _ _ _ hx]
    simp only [setting, documented, entry, hx, Option.bind_none, res_map_ok]
    cases x <;> rfl
  case forwardScan =>
    obtain ⟨x, hx⟩ := tb "forwardScan"
    rw [Proc.option, Proc.yaml_loaded file _ _ _ hx]
    simp only [setting, documented, entry, hx, Option.bind_none, res_map_ok]
    cases x <;> rfl
  case cacheEnabled =>
    obtain ⟨x, hx⟩ := tb "cache.enabled"
    rw [Proc.option, Proc.yaml_loaded file _ _ _ hx]
    simp only [setting, documented, entry, hx, Option.bind_none, res_map_ok]
    cases x <;> rfl
  case cacheShadow =>
    obtain ⟨x, hx⟩ := tb "cache.shadowfdb"
    rw [Proc.option]
    generalize p.conf now = r at file
    obtain ⟨p', r⟩ := r
    simp only at file
    subst file
    simp only [setting, documented, entry, hx, dir, Option.bind_none, res_map_ok]
    cases x <;> rfl
  case port =>
    obtain ⟨x, hx⟩ := ti "server.port"
    rw [Proc.option, Proc.once_first first, Proc.yaml_loaded file _ _ _ hx]
    simp only [setting, documented, entry, hx, resourceInt, translated, Option.bind_none, Option.bind_some, res_map_ok]
    cases now.env "GRIBJUMP_SERVER_PORT" <;> cases x <;> rfl
  case cacheSize =>
    obtain ⟨x, hx⟩ := ti "cache.size"
    rw [Proc.option, Proc.once_first first, Proc.yaml_loaded file _ _ _ hx]
    simp only [setting, documented, entry, hx, resourceInt, translated, Option.bind_none, Option.bind_some, res_map_ok]
    cases now.resource "gribjumpCacheSize" <;> cases x <;> rfl
  case threads =>
    obtain ⟨x, hx⟩ := ti "threads"
    rw [Proc.option, Proc.once_first first, Proc.yaml_loaded file _ _ _ hx]
    simp only [setting, documented, entry, hx, resourceSize, translated, Option.bind_some, res_map_ok]
    cases now.env "GRIBJUMP_THREADS" with
    | some t => rfl
    | none =>
      cases now.resource "gribjumpThreads" with
      | some t => rfl
      | none =>
        cases x with
        | none => rfl
        | some n =>
          have := threads n hx
          simp only [Option.getD_some, Option.map_some, Int.emod_eq_of_lt this.1 this.2]
  case ignoreGrid =>
    obtain ⟨x, hx⟩ := tb "ignoreGridHash"
    rw [Proc.option, Proc.once_first first, Proc.yaml_loaded file _ _ _ hx]
    simp only [setting, documented, entry, hx, resourceBool, translated, Option.bind_none, Option.bind_some, res_map_ok]
    cases now.env "GRIBJUMP_IGNORE_GRID" <;> cases x <;> rfl
  case requestParsing =>
    obtain ⟨x, hx⟩ := tb "requestParsing"
    rw [Proc.option, Proc.once_first first, Proc.yaml_loaded file _ _ _ hx]
    simp only [setting, documented, entry, hx, resourceBool, translated, Option.bind_none, Option.bind_some, res_map_ok]
    cases now.env "GRIBJUMP_REQUEST_PARSING" <;> cases x <;> rfl
  case allowMissing =>
    obtain ⟨x, hx⟩ := tb "allowMissing"
    rw [Proc.option, Proc.once_first first, Proc.yaml_loaded file _ _ _ hx]
    simp only [setting, documented, entry, hx, resourceBool, translated, Option.bind_some, res_map_ok]
    cases now.env "GRIBJUMP_ALLOW_MISSING" <;> cases now.resource "allowMissing" <;> cases x <;> rfl
  case cacheLazy =>
    obtain ⟨x, hx⟩ := tb "cache.lazy"
    rw [Proc.option, Proc.once_first first, Proc.yaml_loaded file _ _ _ hx]
    simp only [setting, documented, entry, hx, resourceBool, translated, Option.bind_none, Option.bind_some, res_map_ok]
    cases now.resource "gribjumpLazyInfo" <;> cases x <;> rfl
  case ignoreYearMonth =>
    rw [Proc.option, Proc.once_first first]
    simp only [setting, documented, resourceBool, translated, Option.bind_none]
    rfl
  case scanCorrupted =>
    rw [Proc.option, Proc.once_first first]
    simp only [setting, documented, resourceBool, translated, Option.bind_none]
    rfl
  case fdbEnable =>
    rw [Proc.option, Proc.once_first first]
    simp only [setting, documented, resourceBool, translated]
    rfl
  case fdbDisable =>
    rw [Proc.option, Proc.once_first first]
    simp only [setting, documented, resourceBool, translated]
    rfl

/-- **C68, the file.**  The file is the one the environment names, else the installed one, else there is none and every
setting has its default. -/
theorem C68_which_file (now : Now) (c : Conf) (h : (Proc.new.conf now).2 = .ok c) :
    (∀ path, now.env "GRIBJUMP_CONFIG_FILE" = some path → now.file path = .ok c.yaml) ∧
    (now.env "GRIBJUMP_CONFIG_FILE" = none → now.installed = true →
      now.file "~gribjump/etc/gribjump/config.yaml" = .ok c.yaml) ∧
    (now.env "GRIBJUMP_CONFIG_FILE" = none → now.installed = false → c.yaml = .none ∧ c.servers = []) := by
  have key : ∀ path ch, (loadFile now ch path).2 = .ok c → now.file path = .ok c.yaml := by
    intro path ch h
    rw [loadFile] at h
    cases hf : now.file path with
    | error e => rw [hf] at h; cases h
    | ok y =>
      rw [hf] at h
      simp only at h
      split at h
      · cases h
      · split at h
        · cases h
        · have e := Except.ok.inj h
          rw [← e]
  have hl : (loadConfig now []).2 = .ok c := by
    rw [Proc.conf] at h
    simp only [Proc.new] at h
    generalize loadConfig now [] = r at h ⊢
    obtain ⟨ch, r⟩ := r
    cases r with
    | error e => cases h
    | ok c' => exact h
  rw [loadConfig] at hl
  refine ⟨fun path he => ?_, fun he hi => ?_, fun he hi => ?_⟩
  · rw [he] at hl; exact key _ _ hl
  · rw [he] at hl; simp only [hi, if_true] at hl; exact key _ _ hl
  · rw [he] at hl
    simp only [hi] at hl
    have e := Except.ok.inj hl
    rw [← e]
    exact ⟨rfl, rfl⟩

/-! ## Fixed values -/

/-- What a process has settled stays settled. -/
def Proc.Extends (p q : Proc) : Prop :=
  (∀ c, p.config = some c → q.config = some c) ∧ ∀ o v, p.memo o = some v → q.memo o = some v

theorem Proc.Extends.refl (p : Proc) : p.Extends p := ⟨fun _ h => h, fun _ _ h => h⟩

theorem Proc.Extends.trans {p q r : Proc} (a : p.Extends q) (b : q.Extends r) : p.Extends r :=
  ⟨fun c h => b.1 c (a.1 c h), fun o v h => b.2 o v (a.2 o v h)⟩

theorem Proc.conf_extends (p : Proc) (now : Now) : p.Extends (p.conf now).1 ∧ (p.conf now).1.memo = p.memo := by
  rw [Proc.conf]
  split
  · exact ⟨.refl _, rfl⟩
  · rename_i hn
    split <;> exact ⟨⟨fun c h => (by rw [hn] at h; cases h), fun o v h => h⟩, rfl⟩

theorem Proc.conf_settles {p : Proc} {now : Now} {c : Conf} (h : (p.conf now).2 = .ok c) :
    (p.conf now).1.config = some c := by
  rw [Proc.conf] at h ⊢
  split
  · rename_i c' hc
    rw [hc] at h
    simp only at h
    rw [← Except.ok.inj h]; exact hc
  · rename_i hn
    rw [hn] at h
    simp only at h
    split at h
    · rename_i hl
      rw [← Except.ok.inj h]
    · cases h

theorem Proc.yaml_conf {α β : Type} (p : Proc) (now : Now) (get : Yaml → Res (Option α)) (d : α) (rest : α → Res β) :
    (p.yaml now get d rest).1 = (p.conf now).1 := by
  rw [Proc.yaml]
  generalize p.conf now = r
  obtain ⟨p', r⟩ := r
  cases r <;> rfl

theorem Proc.once_extends (p : Proc) (o : Opt) (body : Proc × Res CfgVal) (h : p.Extends body.1)
    (hm : body.1.memo = p.memo) : p.Extends (p.once o body).1 := by
  obtain ⟨p', r⟩ := body
  rw [Proc.once.eq_def]
  split
  · exact .refl _
  · rename_i hn
    cases r with
    | error e => exact h
    | ok v =>
      refine ⟨h.1, fun o' v' h' => ?_⟩
      simp only at hm ⊢
      by_cases e : o' = o
      · subst e; rw [hn] at h'; cases h'
      · rw [if_neg e, hm]; exact h'

theorem Proc.option_extends (p : Proc) (now : Now) (o : Opt) : p.Extends (p.option now o).1 := by
  have hc := p.conf_extends now
  cases o <;> simp only [Proc.option]
  case cacheShadow =>
    generalize p.conf now = r at hc
    obtain ⟨p', r⟩ := r
    cases r <;> exact hc.1
  all_goals first
    | (rw [Proc.yaml_conf]; exact hc.1)
    | (refine Proc.once_extends _ _ _ ?_ ?_ <;> rw [Proc.yaml_conf] <;> first | exact hc.1 | exact hc.2)
    | exact Proc.once_extends _ _ _ (.refl _) rfl

theorem Proc.once_settles {p : Proc} {o : Opt} {body : Proc × Res CfgVal} {v : CfgVal}
    (h : (p.once o body).2 = .ok v) : (p.once o body).1.memo o = some v := by
  obtain ⟨p', r⟩ := body
  rw [Proc.once.eq_def] at h ⊢
  split
  · rename_i v' hv
    rw [hv] at h
    rw [← Except.ok.inj h]; exact hv
  · rename_i hn
    rw [hn] at h
    cases r with
    | error e => cases h
    | ok v' =>
      simp only at h
      simp only [if_true]
      rw [Except.ok.inj h]

theorem Proc.once_settled {q : Proc} {o : Opt} {v : CfgVal} (h : q.memo o = some v) (body : Proc × Res CfgVal) :
    (q.once o body).2 = .ok v := by
  rw [Proc.once.eq_def, h]

theorem Proc.conf_settled {q : Proc} {c : Conf} (h : q.config = some c) (now : Now) : q.conf now = (q, .ok c) := by
  rw [Proc.conf, h]

theorem Proc.yaml_again {α β : Type} {p q : Proc} {now now' : Now} {get : Yaml → Res (Option α)} {d : α}
    {rest : α → Res β} {v : β} (h : (p.yaml now get d rest).2 = .ok v)
    (hq : (p.yaml now get d rest).1.Extends q) : (q.yaml now' get d rest).2 = .ok v := by
  rw [Proc.yaml_conf] at hq
  cases hc : (p.conf now).2 with
  | error e =>
    rw [Proc.yaml] at h
    generalize p.conf now = r at h hc
    obtain ⟨p', r⟩ := r
    simp only at hc
    subst hc
    cases h
  | ok c =>
    have hs := hq.1 c (Proc.conf_settles hc)
    rw [Proc.yaml] at h ⊢
    rw [Proc.conf_settled hs]
    generalize p.conf now = r at h hc
    obtain ⟨p', r⟩ := r
    simp only at hc
    subst hc
    exact h

theorem Proc.option_again {p q : Proc} {now now' : Now} {o : Opt} {v : CfgVal} (h : (p.option now o).2 = .ok v)
    (hq : (p.option now o).1.Extends q) : (q.option now' o).2 = .ok v := by
  cases o <;> simp only [Proc.option] at h hq ⊢
  case cacheShadow =>
    cases hc : (p.conf now).2 with
    | error e =>
      generalize p.conf now = r at h hc
      obtain ⟨p', r⟩ := r
      simp only at hc
      subst hc
      cases h
    | ok c =>
      have hs := Proc.conf_settles hc
      generalize p.conf now = r at h hc hq hs
      obtain ⟨p', r⟩ := r
      simp only at hc
      subst hc
      rw [Proc.conf_settled (hq.1 c hs)]
      exact h
  all_goals first
    | exact Proc.yaml_again h hq
    | exact Proc.once_settled (hq.2 _ _ (Proc.once_settles h)) _

theorem Proc.reads_extends (es : List (Now × Opt)) (p : Proc) : p.Extends (p.reads es).1 := by
  induction es generalizing p with
  | nil => exact .refl _
  | cons e es ih => exact (p.option_extends e.1 e.2).trans (ih _)

/-- **C68, fixed at first use.**  However environment, resources and files change and whatever else is read in between:
once a setting was read it keeps its value for the life of the process. -/
theorem C68_fixed_at_first_use (before between : List (Now × Opt)) (now later : Now) (o : Opt) (v : CfgVal)
    (read : ((Proc.new.reads before).1.option now o).2 = .ok v) :
    ((((Proc.new.reads before).1.option now o).1.reads between).1.option later o).2 = .ok v :=
  Proc.option_again read (Proc.reads_extends between _)

/-! ## Broken files -/

/-- **C68, broken file.**  If the file cannot be loaded, every setting that may be in a file is refused with its error
(unless it was settled before), nothing is settled by it, and the next reading tries again. -/
theorem C68_broken_file (p : Proc) (now : Now) (o : Opt) (e : Fault) (hc : p.config = none) (hm : p.memo o = none)
    (broken : (p.conf now).2 = .error e) (key : String) (infile : (documented "" o).file = some key) :
    (p.option now o).2 = .error e ∧ (p.option now o).1.memo = p.memo ∧ (p.option now o).1.config = none := by
  have hx := (p.conf_extends now).2
  have hn : (p.conf now).1.config = none := by
    rw [Proc.conf, hc] at broken ⊢
    simp only at broken ⊢
    generalize loadConfig now p.channels = r at broken ⊢
    obtain ⟨ch, r⟩ := r
    cases r with
    | ok c => cases broken
    | error e' => rfl
  have hy : ∀ {α β : Type} (get : Yaml → Res (Option α)) (d : α) (rest : α → Res β),
      (p.yaml now get d rest).2 = .error e := by
    intro α β get d rest
    rw [Proc.yaml]
    generalize p.conf now = r at broken
    obtain ⟨p', r⟩ := r
    simp only at broken
    subst broken
    rfl
  have ho : ∀ (body : Proc × Res CfgVal), body.2 = .error e → (p.once o body) = (body.1, .error e) := by
    intro body hb
    obtain ⟨p', r⟩ := body
    simp only at hb
    subst hb
    rw [Proc.once.eq_def, hm]
  cases o <;> simp only [Proc.option, documented] at infile ⊢
  case cacheShadow =>
    generalize p.conf now = r at broken hx hn
    obtain ⟨p', r⟩ := r
    simp only at broken
    subst broken
    exact ⟨rfl, hx, hn⟩
  all_goals first
    | (cases infile; done)
    | (refine ⟨hy _ _ _, ?_, ?_⟩ <;> rw [Proc.yaml_conf] <;> assumption)
    | (rw [ho _ (hy _ _ _)]; refine ⟨rfl, ?_, ?_⟩ <;> rw [Proc.yaml_conf] <;> assumption)

/-! ## Log channels -/

/-- A channel name a configuration file may use, in any case. -/
def ChannelName (t : String) (c : LogChannel) : Prop :=
  (lowerText t = "debug" ∧ c = .debug) ∨ (lowerText t = "info" ∧ c = .info) ∨ (lowerText t = "error" ∧ c = .error) ∨
  (lowerText t = "default" ∧ c = .default)

theorem standardChannel_ok (t : String) (c : LogChannel) : standardChannel (lowerText t) = .ok c ↔ ChannelName t c := by
  rw [standardChannel, ChannelName]
  generalize lowerText t = s
  constructor
  · intro h
    split at h
    · rename_i e; exact .inl ⟨e, (Except.ok.inj h).symm⟩
    · split at h
      · rename_i e; exact .inr (.inl ⟨e, (Except.ok.inj h).symm⟩)
      · split at h
        · rename_i e; exact .inr (.inr (.inl ⟨e, (Except.ok.inj h).symm⟩))
        · split at h
          · rename_i e; exact .inr (.inr (.inr ⟨e, (Except.ok.inj h).symm⟩))
          · cases h
  · rintro (⟨rfl, rfl⟩ | ⟨rfl, rfl⟩ | ⟨rfl, rfl⟩ | ⟨rfl, rfl⟩) <;> decide

/-- **C68, log channels.**  The `logging` entries of a file are accepted exactly if each names one of the four channels, in
any case; then an alias is routed to the channel of its last entry, and to the debug channel if it has none (or
`default`). -/
theorem C68_logging (entries : List (String × String)) :
    ((routeLogs [] entries).2 = .ok () ↔ ∀ kv ∈ entries, ∃ c, ChannelName kv.2 c) ∧
    ((routeLogs [] entries).2 = .ok () → ∀ a,
      (∀ before t after c, entries = before ++ (a, t) :: after → (∀ kv ∈ after, kv.1 ≠ a) → ChannelName t c →
        logChannel (routeLogs [] entries).1 a = if c = .default then .debug else c) ∧
      ((∀ kv ∈ entries, kv.1 ≠ a) → logChannel (routeLogs [] entries).1 a = .debug)) := by
  have acc : ∀ (entries : List (String × String)) (r : AMap String LogChannel),
      (routeLogs r entries).2 = .ok () ↔ ∀ kv ∈ entries, ∃ c, ChannelName kv.2 c := by
    intro entries
    induction entries with
    | nil => intro r; exact ⟨fun _ kv h => (by cases h), fun _ => rfl⟩
    | cons kv rest ih =>
      intro r
      obtain ⟨a, t⟩ := kv
      rw [routeLogs]
      cases hs : standardChannel (lowerText t) with
      | error e =>
        simp only
        constructor
        · intro h; cases h
        · intro h
          obtain ⟨c, hc⟩ := h _ List.mem_cons_self
          rw [(standardChannel_ok t c).mpr hc] at hs
          cases hs
      | ok c =>
        simp only
        rw [ih]
        constructor
        · intro h kv hkv
          rcases List.mem_cons.mp hkv with rfl | hkv
          · exact ⟨c, (standardChannel_ok t c).mp hs⟩
          · exact h kv hkv
        · intro h kv hkv
          exact h kv (List.mem_cons_of_mem _ hkv)
  have rest : ∀ (entries : List (String × String)) (r : AMap String LogChannel) (a : String),
      (∀ kv ∈ entries, kv.1 ≠ a) → (routeLogs r entries).1.find a = r.find a := by
    intro entries
    induction entries with
    | nil => intro r a _; rfl
    | cons kv rest ih =>
      intro r a h
      obtain ⟨b, t⟩ := kv
      rw [routeLogs]
      cases hs : standardChannel (lowerText t) with
      | error e => rfl
      | ok c =>
        simp only
        rw [ih _ _ (fun kv hkv => h kv (List.mem_cons_of_mem _ hkv)), AMap.find_set,
          if_neg (fun e => h (b, t) List.mem_cons_self e)]
  have app : ∀ (before : List (String × String)) (r : AMap String LogChannel) (after : List (String × String)),
      (routeLogs r (before ++ after)).2 = .ok () →
      (routeLogs r (before ++ after)) = routeLogs (routeLogs r before).1 after := by
    intro before
    induction before with
    | nil => intro r after _; rfl
    | cons kv rest ih =>
      intro r after h
      obtain ⟨b, t⟩ := kv
      rw [List.cons_append, routeLogs] at h ⊢
      rw [routeLogs]
      cases hs : standardChannel (lowerText t) with
      | error e => rw [hs] at h; cases h
      | ok c =>
        rw [hs] at h
        exact ih _ _ h
  refine ⟨acc entries [], fun ok a => ⟨?_, fun h => ?_⟩⟩
  · intro before t after c he hlast hc
    subst he
    rw [app before [] _ ok, routeLogs, (standardChannel_ok t c).mpr hc]
    simp only
    rw [logChannel, rest _ _ _ hlast, AMap.find_set, if_pos rfl]
    cases c <;> rfl
  · rw [logChannel, rest _ _ _ h]
    rfl

/-! ## Servers -/

/-- **C68, server map.**  A server map is accepted exactly if every entry has both fields and all are endpoints; the
server of an endpoint is that of the last entry that names it. -/
theorem C68_servers (now : Now) (entries : List (Option String × Option String)) :
    ((∃ m, loadServers now [] entries = .ok m) ↔
      ∀ e ∈ entries, ∃ f g a b, e = (some f, some g) ∧ now.endpoint f = .ok a ∧ now.endpoint g = .ok b) ∧
    ∀ m, loadServers now [] entries = .ok m → ∀ before f g after a b,
      entries = before ++ (some f, some g) :: after → now.endpoint f = .ok a → now.endpoint g = .ok b →
      (∀ f' g', (some f', g') ∈ after → now.endpoint f' ≠ .ok a) → m.find a = some b := by
  have step : ∀ (m : AMap (String × Int) (String × Int)) (e : Option String × Option String)
      (rest : List (Option String × Option String)) (m' : AMap (String × Int) (String × Int)),
      loadServers now m (e :: rest) = .ok m' ↔
      ∃ f g a b, e = (some f, some g) ∧ now.endpoint f = .ok a ∧ now.endpoint g = .ok b ∧
        loadServers now (m.set a b) rest = .ok m' := by
    intro m e rest m'
    obtain ⟨fdb, gj⟩ := e
    rw [loadServers.eq_def]
    constructor
    · intro h
      cases gj with
      | none => cases h
      | some g =>
        cases hg : now.endpoint g with
        | error e => simp only [hg] at h; cases h
        | ok b =>
          simp only [hg] at h
          cases fdb with
          | none => cases h
          | some f =>
            cases hf : now.endpoint f with
            | error e => simp only [hf] at h; cases h
            | ok a =>
              simp only [hf] at h
              exact ⟨f, g, a, b, rfl, hf, hg, h⟩
    · rintro ⟨f, g, a, b, he, hf, hg, h⟩
      obtain ⟨rfl, rfl⟩ := Prod.mk.inj he
      simp only [hf, hg]
      exact h
  have acc : ∀ (entries : List (Option String × Option String)) (m : AMap (String × Int) (String × Int)),
      (∃ m', loadServers now m entries = .ok m') ↔
      ∀ e ∈ entries, ∃ f g a b, e = (some f, some g) ∧ now.endpoint f = .ok a ∧ now.endpoint g = .ok b := by
    intro entries
    induction entries with
    | nil => intro m; exact ⟨fun _ e h => (by cases h), fun _ => ⟨m, rfl⟩⟩
    | cons e rest ih =>
      intro m
      constructor
      · rintro ⟨m', h⟩ e' he'
        obtain ⟨f, g, a, b, h1, h2, h3, h4⟩ := (step m e rest m').mp h
        rcases List.mem_cons.mp he' with rfl | he'
        · exact ⟨f, g, a, b, h1, h2, h3⟩
        · exact (ih _).mp ⟨m', h4⟩ e' he'
      · intro h
        obtain ⟨f, g, a, b, h1, h2, h3⟩ := h e List.mem_cons_self
        obtain ⟨m', h4⟩ := (ih (m.set a b)).mpr fun e' he' => h e' (List.mem_cons_of_mem _ he')
        exact ⟨m', (step m e rest m').mpr ⟨f, g, a, b, h1, h2, h3, h4⟩⟩
  have keep : ∀ (entries : List (Option String × Option String)) (m m' : AMap (String × Int) (String × Int))
      (a : String × Int), loadServers now m entries = .ok m' →
      (∀ f' g', (some f', g') ∈ entries → now.endpoint f' ≠ .ok a) → m'.find a = m.find a := by
    intro entries
    induction entries with
    | nil =>
      intro m m' a h _
      rw [loadServers] at h
      rw [Except.ok.inj h]
    | cons e rest ih =>
      intro m m' a h hn
      obtain ⟨f, g, a', b, h1, h2, h3, h4⟩ := (step m e rest m').mp h
      rw [ih _ _ _ h4 (fun f' g' hm => hn f' g' (List.mem_cons_of_mem _ hm)), AMap.find_set, if_neg]
      intro e'
      subst e'
      exact hn f (some g) (by rw [h1]; exact List.mem_cons_self) h2
  refine ⟨acc entries [], ?_⟩
  intro m hm before f g after a b he hf hg hlast
  subst he
  have walk : ∀ (before : List (Option String × Option String)) (m0 : AMap (String × Int) (String × Int)),
      loadServers now m0 (before ++ (some f, some g) :: after) = .ok m → m.find a = some b := by
    intro before
    induction before with
    | nil =>
      intro m0 h
      obtain ⟨f', g', a', b', h1, h2, h3, h4⟩ := (step m0 _ _ m).mp h
      simp only [Prod.mk.injEq, Option.some.injEq] at h1
      obtain ⟨rfl, rfl⟩ := h1
      rw [hf] at h2
      rw [hg] at h3
      obtain rfl := Except.ok.inj h2
      obtain rfl := Except.ok.inj h3
      rw [keep _ _ _ _ h4 hlast, AMap.find_set, if_pos rfl]
    | cons e rest ih =>
      intro m0 h
      obtain ⟨-, -, a', b', -, -, -, h4⟩ := (step m0 _ _ m).mp h
      exact ih _ h4
  exact walk before [] hm

/-- **C68, the whole file is in force.**  What a process has loaded from a file includes that file's server map (the last
entry for an endpoint counts) and its log channels. -/
theorem C68_file_in_force (now : Now) (c : Conf) (path : String) (y : Yaml) (h : (Proc.new.conf now).2 = .ok c)
    (named : now.env "GRIBJUMP_CONFIG_FILE" = some path) (read : now.file path = .ok y) :
    (∀ before f g after a b, y.servermap = before ++ (some f, some g) :: after → now.endpoint f = .ok a →
      now.endpoint g = .ok b → (∀ f' g', (some f', g') ∈ after → now.endpoint f' ≠ .ok a) →
      c.servers.find a = some b) ∧
    (∀ before a t after ch, y.logging = before ++ (a, t) :: after → (∀ kv ∈ after, kv.1 ≠ a) → ChannelName t ch →
      logChannel (Proc.new.conf now).1.channels a = if ch = .default then .debug else ch) := by
  have hs : loadServers now [] y.servermap = .ok c.servers ∧ (routeLogs [] y.logging).2 = .ok () ∧
      (Proc.new.conf now).1.channels = (routeLogs [] y.logging).1 := by
    rw [Proc.conf] at h ⊢
    simp only [Proc.new, loadConfig, named, loadFile, read] at h ⊢
    cases hl : loadServers now [] y.servermap with
    | error e => rw [hl] at h; cases h
    | ok m =>
      rw [hl] at h
      simp only at h ⊢
      generalize routeLogs [] y.logging = r at h ⊢
      obtain ⟨ch, r⟩ := r
      cases r with
      | error e => cases h
      | ok u =>
        have e := Except.ok.inj h
        rw [← e]
        exact ⟨rfl, rfl, rfl⟩
  refine ⟨(C68_servers now y.servermap).2 _ hs.1, ?_⟩
  intro before a t after ch he hl hc
  rw [hs.2.2]
  exact ((C68_logging y.logging).2 hs.2.1 a).1 before t after ch he hl hc

/-! ## Workers -/

/-- **C68, workers.**  A sensible number of threads is the number of workers. -/
theorem C68_workers (n : Nat) (h : n < 2 ^ 31) : workerCount n = n := by
  rw [workerCount, asInt32, Nat.mod_eq_of_lt (by omega), if_pos h]
  rfl

/-- A group none of whose tasks completed. -/
def Grp.Fresh (x : Grp) : Prop := x.nComplete = 0 ∧ (x.phase = .waiting → x.tasks ≠ []) ∧ x.phase ≠ .returned

theorem fresh_set {s : TSys} (h : ∀ g, (s.grp g).Fresh) (g : Nat) (x : Grp) (hx : x.Fresh) (g' : Nat) :
    ((s.setGrp g x).grp g').Fresh := by
  simp only [TSys.setGrp]
  by_cases e : g' = g
  · rw [if_pos e]; exact hx
  · rw [if_neg e]; exact h g'

theorem no_workers_step {s s' : TSys} (hw : s.workers = []) (h0 : ∀ g, (s.grp g).Fresh) (e : TEv)
    (h : s.step e = .ok s') : s'.workers = [] ∧ ∀ g, (s'.grp g).Fresh := by
  have nw : ∀ w : Nat, s.workers[w]? = none := by intro w; rw [hw]; rfl
  cases e with
  | add g =>
    simp only [TSys.step, stepAdd] at h
    have e := Except.ok.inj h
    split at e
    · subst e
      exact ⟨hw, fresh_set h0 g _ ⟨(h0 g).1, fun _ => (by simp), (h0 g).2.2⟩⟩
    · subst e; exact ⟨hw, h0⟩
  | push g =>
    simp only [TSys.step, stepPush] at h
    cases hp : (s.grp g).pushing with
    | none =>
      simp only [hp] at h
      have e := Except.ok.inj h
      subst e; exact ⟨hw, h0⟩
    | some t =>
      simp only [hp] at h
      cases hq : s.q.push g t with
      | error e => simp only [hq] at h; cases h
      | ok q =>
        simp only [hq] at h
        have e := Except.ok.inj h
        subst e
        exact ⟨hw, fresh_set (s := { s with q := q }) h0 g _ ⟨(h0 g).1, (h0 g).2.1, (h0 g).2.2⟩⟩
  | wait g =>
    simp only [TSys.step, stepWait] at h
    have e := Except.ok.inj h
    split at e
    · subst e
      refine ⟨hw, fresh_set h0 g _ ⟨(h0 g).1, ?_, ?_⟩⟩
      · intro hp ht
        simp only at hp ht
        rw [if_pos ht] at hp
        cases hp
      · simp only
        split <;> intro hc <;> cases hc
    · subst e; exact ⟨hw, h0⟩
  | ret g =>
    simp only [TSys.step, stepRet] at h
    have e := Except.ok.inj h
    split at e
    · rename_i hc
      rw [(h0 g).1] at hc
      exact absurd (List.eq_nil_of_length_eq_zero hc.2.symm) ((h0 g).2.1 hc.1)
    · subst e; exact ⟨hw, h0⟩
  | abandon g =>
    simp only [TSys.step, stepAbandon] at h
    have e := Except.ok.inj h
    split at e
    · subst e
      exact ⟨hw, fresh_set h0 g _ ⟨(h0 g).1, fun hc => (by cases hc), fun hc => (by cases hc)⟩⟩
    · subst e; exact ⟨hw, h0⟩
  | pop w =>
    simp only [TSys.step, stepPop, nw w] at h
    have e := Except.ok.inj h
    subst e; exact ⟨hw, h0⟩
  | start w =>
    simp only [TSys.step, stepStart, nw w] at h
    have e := Except.ok.inj h
    subst e; exact ⟨hw, h0⟩
  | finish w =>
    simp only [TSys.step, stepFinish, nw w] at h
    have e := Except.ok.inj h
    subst e; exact ⟨hw, h0⟩
  | fail w msg =>
    simp only [TSys.step, stepFail, nw w] at h
    have e := Except.ok.inj h
    subst e; exact ⟨hw, h0⟩

/-- Nothing completes without workers. -/
theorem no_workers_run (es : List TEv) (s s' : TSys) (hw : s.workers = []) (h0 : ∀ g, (s.grp g).Fresh)
    (h : s.run es = .ok s') : ∀ g, (s'.grp g).phase ≠ .returned := by
  induction es generalizing s with
  | nil =>
    rw [TSys.run] at h
    rw [← Except.ok.inj h]
    exact fun g => (h0 g).2.2
  | cons e es ih =>
    rw [TSys.run] at h
    cases hs : s.step e with
    | error x => rw [hs] at h; cases h
    | ok s1 =>
      rw [hs] at h
      obtain ⟨h1, h2⟩ := no_workers_step hw h0 e hs
      exact ih s1 h1 h2 h

/-- **C68, no workers.**  With `threads: 0`, or a negative number in the file (or 2^31 and more), the process has no worker
at all and no request ever returns, whatever happens. -/
theorem C68_no_workers :
    workerCount 0 = 0 ∧ workerCount ((-3 : Int) % 2 ^ 64).toNat = 0 ∧ workerCount (2 ^ 31) = 0 ∧
    ∀ es s g, (TSys.init (workerCount 0)).run es = .ok s → (s.grp g).phase ≠ .returned := by
  refine ⟨by decide +kernel, by decide +kernel, by decide +kernel, ?_⟩
  intro es s g h
  exact no_workers_run es _ s rfl (fun g => ⟨rfl, fun hc => (by cases hc), fun hc => (by cases hc)⟩) h g

/-- The negative number of threads is what the settings say. -/
theorem C68_negative_threads (now : Now) (hn : ∀ k, now.env k = none) (hr : ∀ k, now.resource k = none)
    (p : Proc) (first : p.memo .threads = none) (c : Conf) (file : (p.conf now).2 = .ok c)
    (n : Int) (neg : c.yaml.int "threads" = .ok (some n)) (h : -(2 ^ 31) ≤ n ∧ n < 0) :
    ∃ m : Nat, (p.option now .threads).2 = .ok (.int m) ∧ workerCount m = 0 := by
  rw [Proc.option, Proc.once_first first, Proc.yaml_loaded file _ _ _ neg]
  simp only [resourceSize, Option.bind_some, hn, hr, Option.getD_some]
  refine ⟨(n % 2 ^ 64).toNat, ?_, ?_⟩
  · rw [Int.toNat_of_nonneg (Int.emod_nonneg _ (by decide))]
  · rw [workerCount, asInt32]
    have : (n % 2 ^ 64).toNat % 2 ^ 32 = (n + 2 ^ 32).toNat := by omega
    rw [this, if_neg (by omega)]
    omega

/-! ## The metadata cache -/

/-- **C68, cache.**  With the cache enabled, index files are next to the data unless a directory is set (or shadowing is
switched off), and then in that directory, which must exist. -/
theorem C68_cache (directory : String) (shadow : Option Bool) (exists_ : String → Bool) :
    cacheMode true directory (shadow.getD (decide (directory = ""))) exists_ =
      if shadow = some true ∨ (shadow = none ∧ directory = "") then .ok .shadow
      else if directory ≠ "" ∧ exists_ directory = true then .ok (.directory directory)
      else throwExn .badValue := by
  rw [cacheMode]
  cases shadow with
  | none => by_cases h : directory = "" <;> simp [h]
  | some b => cases b <;> by_cases h : directory = "" <;> simp [h]

/-- **C68, disabled cache.**  With `cache.enabled: false` index files are not switched off: they are looked up in the root
directory, under names that do not tell files of the same name apart; and memory is used as before.  With `cache.size: 0`
storing the first entry is undefined. -/
theorem C68_disabled_cache (exists_ : String → Bool) (directory : String) (shadow : Bool) :
    (∃ mode, cacheMode false directory shadow exists_ = .ok mode ∧
      mode.indexPath "/fdb/a/data" = "/data.gribjump" ∧ mode.indexPath "/fdb/b/data" = "/data.gribjump") ∧
    ∀ {K V : Type} [DecidableEq K] (k : K) (v : V), (LRU.empty (cacheCapacity 0) : LRU K V).put k v = .error .ub :=
  ⟨⟨.directory "", rfl, by decide +kernel, by decide +kernel⟩, fun k v => C14_capacity_zero_undefined k v⟩

/-- **C68, size of the cache.**  A configured `cache.size` that is positive is the number of files whose entries are kept in
memory; a negative one is no error and no empty cache, but one that is practically never full. -/
theorem C68_cache_size (size : Int) (int : -2 ^ 31 ≤ size ∧ size < 2 ^ 31) :
    (0 ≤ size → (cacheCapacity size : Int) = size) ∧ (size < 0 → 2 ^ 63 ≤ cacheCapacity size) := by
  unfold cacheCapacity
  constructor <;> intro h <;> omega

example : cacheCapacity 1024 = 1024 ∧ cacheCapacity (-1) = 18446744073709551615 := by decide +kernel

/-! ## Cases -/

def c68Yaml : Yaml where
  int k := .ok (if k = "threads" then some 8 else if k = "server.port" then some 9000 else none)
  bool k := .ok (if k = "ignoreGridHash" then some true else none)
  text k := .ok (if k = "cache.directory" then some "/cache" else none)
  logging := [("progress", "INFO"), ("progress", "Error")]
  servermap := [(some "h1", some "h2")]

def c68Now : Now where
  env k := if k = "GRIBJUMP_CONFIG_FILE" then some "/etc/gj.yaml" else if k = "GRIBJUMP_THREADS" then some "4" else none
  resource k := if k = "gribjumpThreads" then some "2" else none
  file p := if p = "/etc/gj.yaml" then .ok c68Yaml else throwExn .ioError
  installed := false
  endpoint t := .ok (t, 1)
  toInt t := if t = "4" then .ok 4 else throwExn .badValue
  toSize t := if t = "4" then .ok 4 else if t = "2" then .ok 2 else throwExn .badValue
  toBool t := if t = "1" then .ok true else throwExn .badValue

/-- The same without environment variables and file. -/
def c68Bare : Now := { c68Now with env := fun _ => none }

/-- The hypotheses of the theorems hold, and the four sources each win somewhere. -/
example : WellTyped c68Yaml ∧ (∃ c, (Proc.new.conf c68Now).2 = .ok c ∧ c.servers.find ("h1", 1) = some ("h2", 1)) ∧
    (Proc.new.option c68Now .threads).2 = .ok (.int 4) ∧ (Proc.new.option c68Bare .threads).2 = .ok (.int 2) ∧
    (Proc.new.option c68Now .port).2 = .ok (.int 9000) ∧ (Proc.new.option c68Now .cacheSize).2 = .ok (.int 1024) ∧
    (Proc.new.option c68Now .cacheShadow).2 = .ok (.bool false) ∧
    ((Proc.new.option c68Now .threads).1.option c68Bare .threads).2 = .ok (.int 4) ∧
    logChannel (Proc.new.conf c68Now).1.channels "progress" = .error :=
  ⟨⟨fun _ => ⟨_, rfl⟩, fun _ => ⟨_, rfl⟩, fun _ => ⟨_, rfl⟩⟩, ⟨_, rfl, by decide +kernel⟩, by decide +kernel,
    by decide +kernel, by decide +kernel, by decide +kernel, by decide +kernel, by decide +kernel, by decide +kernel⟩

/-- **C68, the file matters although it is overridden.**  A variable in the environment does not help against a file that
cannot be read, or whose entry has the wrong type: the default is looked up first. -/
theorem C68_environment_does_not_rescue :
    (Proc.new.option { c68Now with file := fun _ => throwExn .ioError } .threads).2 = .error (.exn .ioError) ∧
    (Proc.new.option { c68Now with file := fun _ => .ok { c68Yaml with int := fun _ => throwExn .badValue } } .threads).2 =
      .error (.exn .badValue) ∧
    setting c68Now { c68Yaml with int := fun _ => throwExn .badValue } (documented "" .threads) = .ok (.int 4) := by
  decide +kernel

example : (Proc.new.conf { c68Now with file := fun _ => throwExn .ioError }).2 = .error (.exn .ioError) :=
  rfl

end GJ
