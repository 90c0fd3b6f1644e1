import Verif.Props.Db
/-! # CreateCollection, names and GET, exactly: C37, C38, C42, C54 -/
namespace Vectory
variable {V : Type}

/-- a saved row is found by the next open. -/
theorem row_found {db db2 : Db} {r : Row} (hr : r ∈ db.rows) (hre : db.reopen = .ok db2) : db2.getErr r.name = none := by
  obtain ⟨k1, _, k3, _⟩ := reopen_spec_db hre
  have hh := (initColls_has _ _ _ _ k1 r.name).mpr (Or.inr (List.mem_map_of_mem hr))
  obtain ⟨oc, hoc⟩ := get_of_has hh
  unfold Db.getErr Db.get
  rw [k3, hoc]; rfl

theorem newCollection_empty {cfg : Config} {of : Bool} (h : cfg.indexType = "hnsw") (ho : of = false) :
    ∃ c, newCollection cfg {} of = .ok c := by
  unfold newCollection
  rw [ho, if_neg (by simp), if_pos h, openColl_empty]
  exact ⟨_, rfl⟩

/-- **C37, exactly.** If CreateCollection returns an error, the collections of the running database are those from before. As for the
files there are three cases: nothing changed; or the row of the collection was saved and stays - this happens only if creating the
directory or opening the files failed, a directory of that name was there, or the configuration is a DiskANN one - and then, if the
database can be opened again at all, the collection exists after the next Open; or no row was saved (the configuration has no index
parameters or no embedder configuration) and at most an empty directory of that name was added - only if opening the files failed, a
directory of that name was there, or the configuration is a DiskANN one. -/
theorem C37_exact (db db' : Db) (cfg : Config) (env : CreateEnv) (e : Err) (h : db.create cfg env = .ok (db', some e)) :
    db'.colls = db.colls ∧ db'.closed = db.closed ∧
    (db' = db ∨
      ((∃ row, db'.rows = db.rows ++ [row] ∧ row.name = cfg.name) ∧
        (cfg.indexType ≠ "hnsw" ∨ env.mkdirFails = true ∨ env.openFails = true ∨ db.dirs.has cfg.name = true) ∧
        ∀ db2, db'.reopen = .ok db2 → db2.getErr cfg.name = none) ∨
      (db' = { db with dirs := db.dirs.set cfg.name ((db.dirs.get? cfg.name).getD {}) } ∧
        (cfg.indexParams = none ∨ cfg.embedderConfig = none) ∧
        (cfg.indexType ≠ "hnsw" ∨ env.openFails = true ∨ db.dirs.has cfg.name = true))) := by
  rcases create_rejected h with ⟨rfl, _⟩ | ⟨hc, hdoc, hn⟩
  · exact ⟨rfl, rfl, Or.inl rfl⟩
  rw [create_reduce env hc hdoc hn] at h
  rcases metaCreate_cases db cfg env with ⟨e1, h1⟩ | ⟨h1, h2⟩ | ⟨_, _, _, _, e2, r, _, _, _, _, hreq, h1, h2⟩ |
      ⟨_, _, _, _, r, _, _, _, _, hreq, h1, hd, _⟩
  · rw [h1] at h; cases h; exact ⟨rfl, rfl, Or.inl rfl⟩
  · rw [h1] at h
    dsimp only at h
    cases hnew : newCollection cfg ((db.dirs.get? cfg.name).getD {}) env.openFails with
    | ok c => rw [hnew] at h; cases h
    | error a =>
      rw [hnew] at h
      cases a with
      | panic p => cases h
      | error e' =>
        cases h
        refine ⟨rfl, rfl, Or.inr (Or.inr ⟨rfl, h2, ?_⟩)⟩
        by_cases hh : cfg.indexType = "hnsw"
        · by_cases ho : env.openFails = true
          · exact Or.inr (Or.inl ho)
          · refine Or.inr (Or.inr ?_)
            cases hdir : db.dirs.has cfg.name with
            | true => rfl
            | false =>
              have hnone : db.dirs.get? cfg.name = none := by simpa [AMap.has] using hdir
              obtain ⟨c, hcn⟩ := newCollection_empty (cfg := cfg) hh (by simpa using ho)
              rw [hnone] at hnew
              rw [show (none : Option Disk).getD {} = {} from rfl, hcn] at hnew
              cases hnew
        · exact Or.inl hh
  · rw [h1] at h
    cases h
    refine ⟨rfl, rfl, Or.inr (Or.inl ⟨⟨r, rfl, by rw [hreq]⟩, ?_, fun db2 hre => ?_⟩)⟩
    · rcases h2 with h2 | h2
      · exact Or.inr (Or.inl h2)
      · exact Or.inr (Or.inr (Or.inr h2))
    · have := row_found (db := { db with rows := db.rows ++ [r], nextId := db.nextId + 1 }) (r := r) (by simp) hre
      rw [hreq] at this; exact this
  · rw [h1] at h
    dsimp only at h
    rw [AMap.get?_set_self, show (some ({} : Disk)).getD {} = {} from rfl] at h
    cases hnew : newCollection cfg {} env.openFails with
    | ok c => rw [hnew] at h; cases h
    | error a =>
      rw [hnew] at h
      cases a with
      | panic p => cases h
      | error e' =>
        cases h
        refine ⟨rfl, rfl, Or.inr (Or.inl ⟨⟨r, rfl, by rw [hreq]⟩, ?_, fun db2 hre => ?_⟩)⟩
        · by_cases hh : cfg.indexType = "hnsw"
          · by_cases ho : env.openFails = true
            · exact Or.inr (Or.inr (Or.inl ho))
            · obtain ⟨c, hcn⟩ := newCollection_empty (cfg := cfg) hh (by simpa using ho)
              rw [hcn] at hnew; cases hnew
          · exact Or.inl hh
        · have := row_found (r := r) (by simp) hre
          rw [hreq] at this; exact this

/-- all three cases occur: a name in use; an existing directory; a configuration without embedder configuration whose files cannot be
opened. -/
example : answersOf [.create (demoConfig "a") {}, .create (demoConfig "a") {}] = some [some none, some (some .collectionAlreadyExists)] ∧
    answersOf [.create (demoConfig "a") { mkdirFails := true }] = some [some (some .io)] ∧
    answersOf [.create (badConfig "a") { openFails := true }] = some [some (some .io)] := by decide +kernel

/-- **C38, exactly.** A collection that CreateCollection returned and that no row was left over for exists after the next Open iff its
configuration has an embedder configuration. -/
theorem C38_exact (db db1 db2 : Db) (cfg : Config) (env : CreateEnv) (hc : db.create cfg env = .ok (db1, none))
    (hr : cfg.name ∉ db.rows.map Row.name) (hre : db1.reopen = .ok db2) :
    db2.getErr cfg.name = none ↔ cfg.embedderConfig ≠ none := by
  constructor
  · intro h he
    have := (C38_lost db db1 db2 cfg env hc he hr hre).2
    rw [h] at this; cases this
  · intro he
    have hh : cfg.indexType = "hnsw" := by
      rcases create_rejected hc with ⟨_, hne⟩ | ⟨h1, h2, h3⟩
      · exact absurd rfl hne
      rw [create_reduce env h1 h2 h3] at hc
      cases hm : db.metaCreate cfg env with
      | mk db0 r =>
        rw [hm] at hc
        cases r with
        | error e => cases hc
        | ok id =>
          dsimp only at hc
          cases hnew : newCollection cfg ((db0.dirs.get? cfg.name).getD {}) env.openFails with
          | error a => rw [hnew] at hc; cases a <;> cases hc
          | ok c =>
            unfold newCollection at hnew
            split at hnew
            · cases hnew
            · split at hnew
              · assumption
              · cases hnew
    exact C38_holds (V := Unit) ⟨fun _ => none, fun _ => none⟩ intOps db db1 cfg env hc he hh [] db1 db2 (.nil _)
      (fun _ h => by cases h) hre

/-- both sides occur. -/
example : (dbOf [.create (demoConfig "a") {}, .restart]).any (fun db => db.getErr "a" == none) = true ∧
    (dbOf [.create (badConfig "a") {}, .restart]).any (fun db => db.getErr "a" != none) = true := by decide +kernel

/-- **C42, exactly.** The files of a collection are in the directory that bears its name, directly inside the data directory and away from
the metadata file, iff the name is plain: not empty, no `/`, not `.` or `..`, not the name of the metadata file. `hdata`: `data` lists the components of a path. -/
theorem C42_exact (data : List String) (n : String) (hdata : ∀ x ∈ data, '/' ∉ x.toList) :
    (collectionDir data n = data ++ [n] ∧ collectionDir data n ≠ metadataFile data) ↔ PlainName n := by
  constructor
  · rintro ⟨h1, h2⟩
    refine ⟨?_, ?_, ?_, ?_, ?_⟩
    · rintro rfl
      have : collectionDir data "" = data := rfl
      rw [this] at h1
      have := congrArg List.length h1
      simp at this
    · rintro rfl
      have : collectionDir data "." = data := rfl
      rw [this] at h1
      have := congrArg List.length h1
      simp at this
    · rintro rfl
      have : collectionDir data ".." = data.dropLast := rfl
      rw [this] at h1
      have := congrArg List.length h1
      simp at this
    · rintro rfl
      exact h2 h1
    · intro hs
      have key : ∀ (cs : List (List Char)) (at_ : List String), (∀ c ∈ cs, '/' ∉ c) → ∀ x ∈ cs.foldl followOne at_, x ∈ at_ ∨ '/' ∉ x.toList := by
        intro cs
        induction cs with
        | nil => intro at_ _ x hx; exact Or.inl hx
        | cons c cs ih =>
          intro at_ hc x hx
          rcases ih (followOne at_ c) (fun c' h' => hc c' (List.mem_cons_of_mem _ h')) x hx with h | h
          · unfold followOne at h
            split at h
            · exact Or.inl h
            · split at h
              · exact Or.inl (List.dropLast_subset _ h)
              · rcases List.mem_append.mp h with h | h
                · exact Or.inl h
                · right
                  rw [List.mem_singleton.mp h, String.toList_ofList]
                  exact hc c (List.mem_cons_self ..)
          · exact Or.inr h
      have hsne : ∀ l : List Char, splitSlash l ≠ [] := by
        intro l
        cases l with
        | nil => simp [splitSlash]
        | cons a l => unfold splitSlash; split <;> (try split) <;> simp
      have hparts : ∀ (l : List Char), ∀ c ∈ splitSlash l, '/' ∉ c := by
        intro l
        induction l with
        | nil => intro c hc; simp [splitSlash] at hc; subst hc; simp
        | cons a l ih =>
          intro c hc
          unfold splitSlash at hc
          split at hc
          · rename_i he
            exact absurd he (hsne l)
          · rename_i p ps he
            split at hc
            · rcases List.mem_cons.mp hc with rfl | hc
              · simp
              · exact ih c (by rw [he]; exact hc)
            · rename_i hne
              rcases List.mem_cons.mp hc with rfl | hc
              · intro hm
                rcases List.mem_cons.mp hm with hm | hm
                · exact hne hm.symm
                · exact ih p (by rw [he]; exact List.mem_cons_self ..) hm
              · exact ih c (by rw [he]; exact List.mem_cons_of_mem _ hc)
      have hm : n ∈ collectionDir data n := by rw [h1]; simp
      rcases key (splitSlash n.toList) data (hparts _) n hm with h | h
      · exact hdata n h hs
      · exact h hs
  · intro h
    obtain ⟨h1, h2, _⟩ := C42_plain data n h
    exact ⟨h1, h2⟩

/-- **C54, exactly.** GET of a collection that was just created answers 200 with its configuration, the mappings replaced by none; so it
shows the configuration it was created with iff that has no mappings. -/
theorem C54_exact (db db' : Db) (cfg : Config) (env : CreateEnv) (h : db.create cfg env = .ok (db', none)) :
    db'.handleGet cfg.name = { code := 200, payload := some { cfg with mappings := [] } } ∧
    ((db'.handleGet cfg.name).payload = some cfg ↔ cfg.mappings = []) := by
  obtain ⟨p, hp, he⟩ := C54_holds db db' cfg env h
  have hm := C54_mappings_hidden db' cfg.name p (by rw [hp])
  rw [hm] at he
  subst he
  refine ⟨hp, ?_⟩
  rw [hp]
  constructor
  · intro h; injection h with h; rw [← h]
  · intro h; cases cfg; simp at h; subst h; rfl

/-- C54 after restarts: after any clean history and an Open, GET of a collection that was created and not deleted answers 200 with the
configuration it was created with (`SameConfig`: names, types, the index parameters in effect, the embedder configuration as JSON), and
no mappings. -/
theorem C54_after_restart (js : Json V) (o : FloatOps) (h : List (DbOp V × DbOut V)) (db db' : Db) (hr : DbRuns js o {} h db)
    (hcl : ∀ x ∈ h, CleanOp x) (hre : db.reopen = .ok db') (n : String) (cfg : Config) (hc : createdWith h n = some cfg)
    (hk : ∀ ip, cfg.indexParams = some ip → DistinctKeys ip ∨ viaMap ip = some ip) :
    ∃ p, db'.handleGet n = { code := 200, payload := some p } ∧ SameConfig cfg p ∧ p.mappings = [] := by
  obtain ⟨oc, hg, hs, _⟩ := C35_holds js o h db db' hr hcl hre n cfg hc hk
  obtain ⟨h1, _⟩ := reopen_spec_db hre
  have key := initColls_all db.contents (fun _ oc => oc.coll.closed = false)
    db.rows [] db'.colls h1 (fun n oc h => by simp [AMap.get?] at h)
    (fun r _ c hc => (newCollection_ok hc).2.2.2.1) n oc (get_ok hg).2
  refine ⟨{ oc.config with mappings := [] }, ?_, ⟨hs.name, hs.indexType, hs.dataType, hs.embedderType, hs.params, hs.embedder⟩, rfl⟩
  unfold Db.handleGet
  rw [hg]
  simp [key]

/-- a created collection, before and after a restart; it has mappings. -/
example : (demoConfig "a").mappings ≠ [] ∧
    (dbOf [.create (demoConfig "a") {}]).any (fun db => (db.handleGet "a").code == 200) = true ∧
    (dbOf [.create (demoConfig "a") {}, .restart]).any (fun db => (db.handleGet "a").code == 200) = true := by decide +kernel

end Vectory
