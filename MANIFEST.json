{
 "claims": [
  {
   "property": "C01",
   "status": "proved",
   "theorems": [
    "Verif.Session.C01_never_overspent",
    "Verif.Session.C01_every_session",
    "Verif.Session.C01_loss_well_defined",
    "Verif.Session.C01_answers_are_logged",
    "Verif.Session.C01_log_grows"
   ],
   "note": "All histories of all session methods on the whole partition tree; accountant by contract."
  },
  {
   "property": "C02",
   "status": "proved",
   "theorems": [
    "Verif.Session.C02_rejected_call_changes_nothing",
    "Verif.Session.C02_active_session_unchanged",
    "Verif.Session.C02_rejected_call_retires"
   ],
   "note": "Observables (budget, private and public tables) never change on a rejected call. Lifecycle may: C02_rejected_call_retires is the witness."
  },
  {
   "property": "C03",
   "status": "partial",
   "theorems": [
    "Verif.Session.C03_decision_partial",
    "Verif.Session.C03_rounding_gap"
   ],
   "note": "Finite budgets. The tolerance is taken against the remaining budget rounded down to a float; C03_rounding_gap shows a request within 1e-9 that is refused. A PureDPBudget that is refused by an ApproxDP session raises AnalyticsInternalError instead of InsufficientBudgetError (F38, C83)."
  },
  {
   "property": "C04",
   "status": "proved",
   "theorems": [
    "Verif.Budget.C04_adjust_number",
    "Verif.Budget.C04_adjust_number_le",
    "Verif.Budget.C04_adjust_budget"
   ],
   "note": ""
  },
  {
   "property": "C05",
   "status": "proved",
   "theorems": [
    "Verif.Session.C05_infinite",
    "Verif.Whole.C05_library"
   ],
   "note": ""
  },
  {
   "property": "C06",
   "status": "proved",
   "theorems": [
    "Verif.Session.C06_spend_all",
    "Verif.Session.C06_never_increases",
    "Verif.Whole.C06_library"
   ],
   "note": ""
  },
  {
   "property": "C07",
   "status": "proved",
   "theorems": [
    "Verif.Session.C07_charged_once",
    "Verif.Session.C07_isolated"
   ],
   "note": ""
  },
  {
   "property": "C08",
   "status": "proved",
   "theorems": [
    "Verif.Session.C08_one_active",
    "Verif.Session.C08_retired_forever",
    "Verif.Session.C08_use_supersedes"
   ],
   "note": "Accountant automaton by contract."
  },
  {
   "property": "C09",
   "status": "partial",
   "theorems": [
    "Verif.Budget.C09_valid",
    "Verif.Budget.C09_add_comm",
    "Verif.Budget.C09_add_exact",
    "Verif.Budget.C09_add_assoc",
    "Verif.Budget.C09_add_zero",
    "Verif.Budget.C09_add_zero_rounds",
    "Verif.Budget.C09_sub_exact_pure",
    "Verif.Budget.C09_sub_add",
    "Verif.Budget.C09_kinds",
    "Verif.Budget.C09_scale",
    "Verif.Budget.C09_scale_infinite_partial",
    "Verif.Budget.C09_mul_infinite_zero_raises",
    "Verif.Budget.C09_div_infinite_is_finite",
    "Verif.Budget.C09_infinite",
    "Verif.Budget.C09_sub_exceeds",
    "Verif.Budget.C09_infinite_example"
   ],
   "note": "Infinite ApproxDP budgets are not stable under scaling: inf*0 raises, (1,1)/2 is finite. Exactness needs float-representable values."
  },
  {
   "property": "C10",
   "status": "proved",
   "theorems": [
    "Verif.Budget.C10_budget_eq"
   ],
   "note": ""
  },
  {
   "property": "C11",
   "status": "proved",
   "theorems": [
    "Verif.Session.C11_gatekeeping"
   ],
   "note": ""
  },
  {
   "property": "C12",
   "status": "proved",
   "theorems": [
    "Verif.Binning.C12_unique_bin",
    "Verif.Binning.C12_covers"
   ],
   "note": ""
  },
  {
   "property": "C13",
   "status": "proved",
   "theorems": [
    "Verif.Binning.C13_bins_exact",
    "Verif.Binning.C13_histogram"
   ],
   "note": ""
  },
  {
   "property": "C14",
   "status": "proved",
   "theorems": [
    "Verif.Constraint.C14_simplify"
   ],
   "note": ""
  },
  {
   "property": "C15",
   "status": "proved",
   "theorems": [
    "Verif.Constraint.C15_enforce",
    "Verif.Constraint.C15_order_independent"
   ],
   "note": "Core's limiting transformations by contract (the hash order is a parameter)."
  },
  {
   "property": "C16",
   "status": "partial",
   "theorems": [
    "Verif.Expr.C16_constraints_hold_partial",
    "Verif.Expr.C16_fails_join",
    "Verif.Expr.C16_fails_replace"
   ],
   "note": "Claim is false for private joins bounded only by groups and for default replacement of nulls or NaNs in a grouping column; proved for all other queries. Core's transformations by contract."
  },
  {
   "property": "C17",
   "status": "proved",
   "theorems": [
    "Verif.Constraint.C17_one_id",
    "Verif.Constraint.C17_neighbours"
   ],
   "note": "Core's limiting transformations by contract."
  },
  {
   "property": "C18",
   "status": "proved",
   "theorems": [
    "Verif.Constraint.C18_cheapest",
    "Verif.Constraint.C18_answerable"
   ],
   "note": "The square root key is compared squared (exact) where the code compares floats."
  },
  {
   "property": "C19",
   "status": "partial",
   "theorems": [
    "Verif.Expr.C19_schema_describes_data_partial",
    "Verif.Expr.C19_fails"
   ],
   "note": "Renames that give two columns the same new name are accepted and break the claim; everything else is proved. Core's transformations by contract."
  },
  {
   "property": "C20",
   "status": "partial",
   "theorems": [
    "Verif.Expr.C20_id_survives_partial",
    "Verif.Expr.C20_rejects",
    "Verif.Expr.C20_fails"
   ],
   "note": "Renames that give two columns the same new name break the claim; everything else is proved. Core's transformations by contract."
  },
  {
   "property": "C21",
   "status": "partial",
   "theorems": [
    "Verif.Query.C21_required",
    "Verif.Query.C21_refused",
    "Verif.Expr.C21_tracked",
    "Verif.Expr.C21_values_partial",
    "Verif.Expr.C21_fails"
   ],
   "note": "Claim is false for floating point grouping columns (infinities overwritten by replace_infinity()); proved for all others. Core's transformations by contract."
  },
  {
   "property": "C22",
   "status": "partial",
   "theorems": [
    "Verif.KeySet.C22_rewrite_keeps_keys_partial",
    "Verif.KeySet.C22_rewrite_keeps_rows_partial",
    "Verif.KeySet.C22_rewrite_changes_rows",
    "Verif.KeySet.C22_rewrite_not_stable",
    "Verif.KeySet.C22_rewrite_rejects_joins",
    "Verif.KeySet.C22_rewrite_rejects_zero_subtract"
   ],
   "note": "Whole rewrite system, plans included. Where projections are taken of operands with at least one row and what is subtracted has columns. Claim is false without: projecting onto columns of one factor drops an empty other factor; some joins and subtractions that are accepted fail in the rewriting."
  },
  {
   "property": "C23",
   "status": "partial",
   "theorems": [
    "Verif.KeySet.C23_dataframe",
    "Verif.KeySet.C23_from_tuples",
    "Verif.KeySet.C23_from_dataframe",
    "Verif.KeySet.C23_from_dict",
    "Verif.KeySet.C23_mul",
    "Verif.KeySet.C23_sub_partial",
    "Verif.KeySet.C23_getitem_partial",
    "Verif.KeySet.C23_join",
    "Verif.KeySet.C23_filter",
    "Verif.KeySet.C23_union",
    "Verif.KeySet.C23_getitem_empty_fails"
   ],
   "note": "All KeySets built by any sequence of constructors and operators. Projection of an empty KeySet is excluded (C23_getitem_empty_fails shows it is wrong), and subtraction of a KeySet without columns."
  },
  {
   "property": "C24",
   "status": "partial",
   "theorems": [
    "Verif.KeySet.C24_size_partial",
    "Verif.KeySet.C24_fast_size",
    "Verif.KeySet.C24_total",
    "Verif.KeySet.C24_total_union_fails"
   ],
   "note": "KeySets with columns, and constructors without. Claim is false for unions and filters of KeySets without columns, which count 0."
  },
  {
   "property": "C25",
   "status": "partial",
   "theorems": [
    "Verif.KeySet.C25_eq",
    "Verif.KeySet.C25_is_equivalent",
    "Verif.KeySet.C25_equivalence",
    "Verif.KeySet.C25_eq_answers",
    "Verif.KeySet.C25_hash_partial",
    "Verif.KeySet.C25_plan_equivalent",
    "Verif.KeySet.C25_self",
    "Verif.KeySet.C25_plan_self",
    "Verif.KeySet.C25_hash_fails",
    "Verif.KeySet.C25_column_conditions_raise",
    "Verif.KeySet.C25_plan_column_order_fails"
   ],
   "note": "Equality is exact and an equivalence. The hash part is false: equal KeySets with columns in another order or with other nullability hash differently. Comparing KeySets filtered with Column conditions can raise ValueError."
  },
  {
   "property": "C26",
   "status": "proved",
   "theorems": [
    "Verif.KeySet.C26_decompose",
    "Verif.KeySet.C26_recombine"
   ],
   "note": "Same scope as C23."
  },
  {
   "property": "C27",
   "status": "proved",
   "theorems": [
    "Verif.Query.C27_one_row_per_key",
    "Verif.Query.C27_absent",
    "Verif.Query.C27_total",
    "Verif.Query.C27_auto"
   ],
   "note": "Core's group-by and partition selection by contract; noise left out."
  },
  {
   "property": "C28",
   "status": "proved",
   "theorems": [
    "Verif.Query.C28_right_noise",
    "Verif.Query.C28_refused",
    "Verif.Query.C28_total",
    "Verif.Query.C28_nothing_else"
   ],
   "note": ""
  },
  {
   "property": "C29",
   "status": "partial",
   "theorems": [
    "Verif.Query.C29_special_values_partial",
    "Verif.Query.C29_numbers_only_partial"
   ],
   "note": "Renames that give two columns the same new name are excluded (see C19); everything else is proved. Core's transformations by contract."
  },
  {
   "property": "C30",
   "status": "proved",
   "theorems": [
    "Verif.Whole.C30_session",
    "Verif.Whole.Example.C30_example"
   ],
   "note": "C30_session is the claim for evaluate(). The compiler on its own loses the delta of a finite budget with delta = 1 (C30_fails); the session makes such budgets infinite before it compiles."
  },
  {
   "property": "C31",
   "status": "proved",
   "theorems": [
    "Verif.Query.C31_no_delta",
    "Verif.Query.C31_all_used",
    "Verif.Query.C31_within"
   ],
   "note": "By contract a core measurement has the privacy function it is constructed with."
  },
  {
   "property": "C32",
   "status": "proved",
   "theorems": [
    "Verif.Query.C32_suppress",
    "Verif.Query.C32_exact"
   ],
   "note": ""
  },
  {
   "property": "C33",
   "status": "proved",
   "theorems": [
    "Verif.Relation.C33_accepts",
    "Verif.Relation.C33_session",
    "Verif.Relation.C33_names",
    "Verif.Relation.C33_tables"
   ],
   "note": "For data frames with distinct column names, as the builder stores them. Core's schema conversion by contract."
  },
  {
   "property": "C34",
   "status": "proved",
   "theorems": [
    "Verif.Relation.C34_distance",
    "Verif.Relation.C34_domain"
   ],
   "note": "Core's metrics by contract, written out in Verif.Relation.Distance."
  },
  {
   "property": "C35",
   "status": "proved",
   "theorems": [
    "Verif.Relation.C35_found",
    "Verif.Relation.C35_missing",
    "Verif.Relation.C35_exact",
    "Verif.Relation.C35_injective",
    "Verif.Relation.C35_all"
   ],
   "note": ""
  },
  {
   "property": "C36",
   "status": "partial",
   "theorems": [
    "Verif.Session.C36_create",
    "Verif.Session.C36_create_delete",
    "Verif.Session.C36_delete_unknown",
    "Verif.Session.C36_delete_deletes_sources",
    "Verif.Session.C36_names_partial",
    "Verif.Session.C36_identifiers",
    "Verif.Session.C36_partition_name_clash"
   ],
   "note": "delete_view also deletes original private tables; partition names are not checked against public names."
  },
  {
   "property": "C37",
   "status": "partial",
   "theorems": [
    "Verif.Relation.C37_names",
    "Verif.Relation.C37_rejected",
    "Verif.Relation.C37_keeps",
    "Verif.Relation.C37_build",
    "Verif.Relation.C37_build_partial",
    "Verif.Relation.C37_fails"
   ],
   "note": "Claim is false for builders that are used again after build(): the ID space of a single table stays declared. The condition on ID spaces is proved for the first build(), everything else for all call sequences. For data frames with distinct column names."
  },
  {
   "property": "C38",
   "status": "proved",
   "theorems": [
    "Verif.Schema.C38_roundtrip",
    "Verif.Schema.C38_lookup",
    "Verif.Schema.C38_eq",
    "Verif.Schema.C38_hash",
    "Verif.Schema.C38_merge"
   ],
   "note": "Immutability itself is not modelled (values are immutable in the model)."
  },
  {
   "property": "C39",
   "status": "partial",
   "theorems": [
    "Verif.Schema.C39_roundtrip_partial",
    "Verif.Schema.C39_roundtrip_loses",
    "Verif.Schema.C39_roundtrip_keeps",
    "Verif.Schema.C39_domain_roundtrip",
    "Verif.Schema.C39_spark_roundtrip",
    "Verif.Schema.C39_struct",
    "Verif.Schema.C39_coerce",
    "Verif.Schema.C39_coerce_accepts",
    "Verif.Expr.C39_init",
    "Verif.Expr.C39_frame"
   ],
   "note": "Claim is false for non-DECIMAL columns flagged as allowing NaN or infinity; everything else is proved. Spark's casts by contract."
  },
  {
   "property": "C40",
   "status": "partial",
   "theorems": [
    "Verif.Schema.C40_hash_partial",
    "Verif.Schema.C40_fails",
    "Verif.Schema.C40_equivalence"
   ],
   "note": "Claim is false: equality ignores column order, the hash does not."
  },
  {
   "property": "C41",
   "status": "partial",
   "theorems": [
    "Verif.Expr.C41_rename_partial",
    "Verif.Expr.C41_rejects",
    "Verif.Expr.C41_fails"
   ],
   "note": "Claim is false: two columns may be renamed to the same new name and then collapse into one."
  },
  {
   "property": "C42",
   "status": "proved",
   "theorems": [
    "Verif.Misc.C42_decides",
    "Verif.Misc.C42_errors",
    "Verif.Misc.C42_sets"
   ],
   "note": ""
  },
  {
   "property": "C43",
   "status": "proved",
   "theorems": [
    "Verif.Misc.C43_restored",
    "Verif.Misc.C43_nested",
    "Verif.Misc.C43_inside",
    "Verif.Misc.C43_others"
   ],
   "note": ""
  },
  {
   "property": "C44",
   "status": "partial",
   "theorems": [
    "Verif.Misc.C44_noise_partial",
    "Verif.Misc.C44_fails"
   ],
   "note": "Claim is false for trees holding a non-component with an entry `name` that is the name of a noise class; proved for all others in which noise components hold their parameter."
  },
  {
   "property": "C45",
   "status": "proved",
   "theorems": [
    "Verif.Builder.C45_query_fixed",
    "Verif.Builder.C45_grouped_fixed",
    "Verif.Builder.C45_builder_kept",
    "Verif.Builder.C45_raised",
    "Verif.Builder.C45_transform",
    "Verif.Builder.C45_join",
    "Verif.Builder.C45_groupby",
    "Verif.Builder.C45_aggregate",
    "Verif.Builder.C45_clone",
    "Verif.Builder.C45_no_branching"
   ],
   "note": "All programs that create, change and combine builders and their list and dict arguments; user functions and data frames are opaque values. C45_no_branching records that builder methods change the builder itself."
  },
  {
   "property": "C46",
   "status": "partial",
   "theorems": [
    "Verif.Builder.C46_eq_partial",
    "Verif.Builder.C46_is_equivalent_partial",
    "Verif.Builder.C46_bytecode_fails",
    "Verif.Builder.C46_frames_fail",
    "Verif.Builder.C46_types_fail",
    "Verif.Builder.C46_frames",
    "Verif.Builder.C46_frames_example"
   ],
   "note": "Claim is false: functions are compared by byte code without constants and closures, data frames through pandas, values by Python equality. Proved where these three comparisons are faithful. C46_frames says when two data frames without nulls and NaNs compare equal."
  },
  {
   "property": "C47",
   "status": "partial",
   "theorems": [
    "Verif.Session.C47_private_unaffected_partial",
    "Verif.Session.C47_public_tables_leak",
    "Verif.Session.C47_leak_witness"
   ],
   "note": "Claim is false: the dict of public tables is shared by all sessions of a partition tree."
  },
  {
   "property": "C48",
   "status": "proved",
   "theorems": [
    "Verif.Stability.C48_rows",
    "Verif.Stability.C48_flat_map",
    "Verif.Stability.C48_join",
    "Verif.Stability.C48_groups_sum",
    "Verif.Stability.C48_groups_root_partial",
    "Verif.Stability.C48_documented_formula_fails"
   ],
   "note": "All transformations on tables without IDs, for the stability functions core documents (assumed). C48_groups_root_partial is the zCDP metric for grouping tables, where the conversion to the metric of a nested grouping is not covered. C48_documented_formula_fails: the sensitivity formula in the documentation of TruncationStrategy has the two thresholds swapped and is not a bound."
  },
  {
   "property": "C49",
   "status": "proved",
   "theorems": [
    "Verif.Constraint.C49_shortcut"
   ],
   "note": ""
  },
  {
   "property": "C50",
   "status": "proved",
   "theorems": [
    "Verif.Composition.C50_adaptive"
   ],
   "note": "Pure, approximate and zero-concentrated privacy; any (randomised) analyst who may use views, partitions and all sessions in any order and sees every reply and all public state. Assumed (Sound): each measurement is private for the budget its privacy relation was checked with, proportionally for a share s <= 1 of the change, on tables that behave as their metadata says (fits); views and parts of such tables are such tables, and the shares of the parts of a partition add up to at most the whole; refusals do not depend on private data."
  },
  {
   "property": "C51",
   "status": "partial",
   "theorems": [
    "Verif.Binning.C51_default_names_partial",
    "Verif.Binning.C51_tiny_edges_fail",
    "Verif.Bins.C51_rendered"
   ],
   "note": "Claim is false: edges that do not differ when rounded to 16 decimals have no default names. C51_rendered: the abstract names stand for the strings that the code makes."
  },
  {
   "property": "C52",
   "status": "proved",
   "theorems": [
    "Verif.KeySet.C52_schema_describes_rows"
   ],
   "note": "Same scope as C23."
  },
  {
   "property": "C53",
   "status": "partial",
   "theorems": [
    "Verif.Builder.C53_hash_partial",
    "Verif.Builder.C53_hash_fails"
   ],
   "note": "Claim is false for queries holding functions or data frames, which compare by content but hash by identity; proved for all others."
  },
  {
   "property": "C54",
   "status": "partial",
   "theorems": [
    "Verif.Stability.C54_query_rows",
    "Verif.Stability.C54_query_ids_partial",
    "Verif.Stability.C54_ids_partial"
   ],
   "note": "Whole queries. For ID tables the user functions given to flat_map_by_id must not depend on the order of the rows of an ID (Spark gives no order), and ID columns are not floats."
  },
  {
   "property": "C55",
   "status": "proved",
   "theorems": [
    "Verif.Whole.C55_measurement",
    "Verif.Whole.C55_view",
    "Verif.Whole.C55_partition"
   ],
   "note": "Queries and views of the model's expressions (Admissible: user functions return rows of the declared columns, do not depend on row order for flat_map_by_id, no rename to one name twice, no grouping flat map by a float). Assumed of core (Core.Private): a measurement built for a budget and a distance is private for that budget on tables at that distance, proportionally for shares of it."
  },
  {
   "property": "C56",
   "status": "proved",
   "theorems": [
    "Verif.Whole.C56_session",
    "Verif.Whole.C56_builder",
    "Verif.Whole.Example.C56_example",
    "Verif.Whole.coin_private"
   ],
   "note": "From the calls of the builder to the distribution of all replies. Assumptions as C55; values of data frames have the types of their columns; budgets given to calls are valid. coin_private shows that the contract for core can be met by noise that depends on the data; C56_example applies the theorem to a session with three kinds of tables."
  },
  {
   "property": "C57",
   "status": "partial",
   "theorems": [
    "Verif.Meaning.C57_computed_partial",
    "Verif.Meaning.C57_transformations_partial",
    "Verif.Meaning.C57_left_fails",
    "Verif.Meaning.Example.C57_example"
   ],
   "note": "Claim is false: a left public join of a table with IDs is answered as an inner join. Proved, up to the order of rows, for all compositions of transformations with this change (C57_computed_partial), and as documented for those without such joins (C57_transformations_partial), without a rename of two columns to one name (C19_fails); user functions return rows of the declared columns."
  },
  {
   "property": "C58",
   "status": "partial",
   "theorems": [
    "Verif.Whole.C58_start",
    "Verif.Whole.C58_part",
    "Verif.Whole.C58_view_partial",
    "Verif.Whole.C58_query_partial",
    "Verif.Whole.Example.C58_example"
   ],
   "note": "New sessions and partitions in full. Views and queries with the exceptions of C57 (left public joins of tables with IDs are described as the inner joins that they are), and where constraints of views matter, those of C16. count_distinct is treated in C49. C58_example applies the theorems to a session with a view, its parts and a count."
  },
  {
   "property": "C59",
   "status": "partial",
   "theorems": [
    "Verif.Query.C59_answer_partial",
    "Verif.Query.C59_groups_partial",
    "Verif.Query.C59_null_fails",
    "Verif.Query.C59_collision_fails"
   ],
   "note": "Claim is false: a KeySet may have null keys for a column without nulls, and an output column may have the name of a group-by column. Proved for all other aggregations; for get_groups of at least one column. Transformations as in C19. Assumed of core (CoreOK): one row per group with plain values of the declared types."
  },
  {
   "property": "C60",
   "status": "partial",
   "theorems": [
    "Verif.Whole.C60_reports",
    "Verif.Whole.C60_unchanged",
    "Verif.Whole.C60_start",
    "Verif.Whole.C60_constraints_partial",
    "Verif.Whole.Example.C60_example"
   ],
   "note": "Everything but constraints in full, for describe() of a session with at least one private table. Constraints with the exceptions of C16. Queries and data as in C55."
  },
  {
   "property": "C61",
   "status": "partial",
   "theorems": [
    "Verif.Whole.C61_session_partial",
    "Verif.Whole.C61_exact_partial",
    "Verif.Whole.C61_auto_partial",
    "Verif.Whole.C61_groups_partial",
    "Verif.Whole.Example.C61_example",
    "Verif.Whole.Example.C61_groups_example"
   ],
   "note": "For all aggregations of sessions as in C58. Assumed of core (NoNoise, AllGroups): with an infinite budget sums, averages and counts are exact, and partition selection with delta = 1 returns all keys; variances, quantiles and bounds are functions of the clamped values that are left open. The rows of the table are those documented with the exception of C57 (such joins are described as inner joins), and rows within the constraints with the exceptions of C16."
  },
  {
   "property": "C62",
   "status": "partial",
   "theorems": [
    "Verif.Expr.C62_build_partial",
    "Verif.Query.C62_agg_partial",
    "Verif.Query.C62_suppress_partial",
    "Verif.Query.C62_groups_partial",
    "Verif.Query.Total.C62_distinct_auto_fails",
    "Verif.Query.Total.C62_distinct_groups_fails",
    "Verif.Query.Total.C62_groups_id_fails",
    "Verif.Query.Total.C62_measure_bound_fails",
    "Verif.Query.Total.C62_left_join_fails",
    "Verif.Query.Total.C62_grouping_map_fails",
    "Verif.Query.Total.C62_drop_infinity_fails",
    "Verif.Query.Total.C62_join_grouped_fails",
    "Verif.Query.Total.C62_join_name_fails",
    "Verif.Whole.C62_view_partial",
    "Verif.Whole.C62_evaluate_partial",
    "Verif.Whole.Example.C62_laplace_fails"
   ],
   "note": "Claim is false: ten kinds of queries type-check and are refused, four of them with an internal error or an AttributeError. Proved for all other queries: Ready, Answerable and QueryReady list what is excluded or documented as a condition. The Whole theorems are about any session made by the builder or by partitions, after any calls."
  },
  {
   "property": "C63",
   "status": "proved",
   "theorems": [
    "Verif.Whole.C63_partition",
    "Verif.Whole.Example.C63_example"
   ],
   "note": "Assumed of core: PartitionByKeys refuses repeated values, and tables grouped by another column."
  },
  {
   "property": "C64",
   "status": "partial",
   "theorems": [
    "Verif.Whole.C64_histogram_partial",
    "Verif.Whole.C64_answered_partial",
    "Verif.Whole.Example.C64_example",
    "Verif.Whole.Example.C64_answered_example"
   ],
   "note": "Missing: queries before the histogram for which C57, C16 or C62 fail. Types of the bin names enter through a Binner; NaN as a bin name is not modelled."
  },
  {
   "property": "C65",
   "status": "proved",
   "theorems": [
    "Verif.Nested.C65_start",
    "Verif.Nested.C65_history",
    "Verif.Nested.C65_step",
    "Verif.Nested.C65_sources",
    "Verif.Nested.C65_table",
    "Verif.Nested.C65_query",
    "Verif.Nested.C65_create",
    "Verif.Nested.C65_delete",
    "Verif.Nested.C65_partition",
    "Verif.Nested.midReplace_then",
    "Verif.Nested.midDrop_then",
    "Verif.Nested.Example.C65_example",
    "Verif.Nested.Example.midReplace_then_example"
   ],
   "note": "Refinement: the nested dictionaries of every session hold exactly the tables of the list that the other theorems on sessions use. Fine says what is left aside: joins of a table with itself and deletions of the last table of a dictionary, if core refuses them. Distances are not part of the nested model."
  },
  {
   "property": "C66",
   "status": "partial",
   "theorems": [
    "Verif.Whole.C66_keys_partial",
    "Verif.Whole.C66_exact_partial",
    "Verif.Whole.C66_view_partial",
    "Verif.Whole.Example.C66_example"
   ],
   "note": "All expressions, by induction; the claim is false for projections of empty KeySets (C23_getitem_empty_fails), which are excluded, as are subtraction and filtering of KeySets without columns. Assumed of core: OneRowPerKey; without noise as in C61."
  },
  {
   "property": "C67",
   "status": "partial",
   "theorems": [
    "Verif.Whole.C67_charged_partial",
    "Verif.Whole.C67_delta_lost",
    "Verif.Whole.Example.C67_fails"
   ],
   "note": "False for aggregations with a KeySet and an ApproxDPBudget with a delta: the measurement is built with delta zero, but the delta is charged (C67_fails; F30). For all other queries and finite budgets the measurement uses exactly what is charged (C67_charged_partial)."
  },
  {
   "property": "C68",
   "status": "proved",
   "theorems": [
    "Verif.Whole.C68_builder",
    "Verif.Whole.C68_session",
    "Verif.Whole.C68_program",
    "Verif.Whole.C68_example"
   ],
   "note": "Pairs of runs, for all rows. Exceptions raised by Spark while a query is computed (for example by functions given to map) are not modelled."
  },
  {
   "property": "C69",
   "status": "partial",
   "theorems": [
    "Verif.KeySet.C69_plan_partial",
    "Verif.KeySet.C69_keyset_partial",
    "Verif.KeySet.C69_nothing_detected",
    "Verif.KeySet.C69_repeated_columns"
   ],
   "note": "All expressions, by induction. As for C66, projections of empty KeySets and plans are excluded (the claim is false there), as are subtraction and filtering of KeySets without columns, and requests to detect a column twice, which are accepted (C69_repeated_columns)."
  },
  {
   "property": "C70",
   "status": "proved",
   "theorems": [
    "Verif.Relation.C70_accepts",
    "Verif.Whole.C70_session",
    "Verif.Whole.C70_example"
   ],
   "note": "Data frames have distinct column names and values of the types of their columns."
  },
  {
   "property": "C71",
   "status": "partial",
   "theorems": [
    "Verif.Whole.C71_accepts",
    "Verif.Whole.C71_answer_partial",
    "Verif.Whole.Example.C71_name_fails",
    "Verif.Whole.Example.C71_infinity_fails",
    "Verif.Whole.Example.C71_example"
   ],
   "note": "False of the code for names that are the empty string (count_distinct, min, max and median take them for no name), and for infinite values in methods whose documentation says they are dropped: all methods but get_bounds clamp them. Bounds are finite numbers that floats can represent. What core computes from the values is as in C61."
  },
  {
   "property": "C72",
   "status": "partial",
   "theorems": [
    "Verif.Whole.C72_accepts",
    "Verif.Whole.C72_columns",
    "Verif.Whole.C72_answer_partial",
    "Verif.Whole.Example.C72_example",
    "Verif.Whole.Example.C72_documented_example",
    "Verif.Whole.Example.C72_string_columns"
   ],
   "note": "Acceptance and columns for all chains, by induction. Answers are partial: left public joins of tables with IDs are inner joins (the claim is false there, C57_left_fails), dictionaries that rename or replace have distinct keys, functions given to map return rows of the announced columns and types, and constraints are ones the table is known to be able to have (ConsSafe, as in C57). float() of an integer given to replace_infinity is exact."
  },
  {
   "property": "C73",
   "status": "partial",
   "theorems": [
    "Verif.Whole.C73_accepts",
    "Verif.Whole.C73_suppress",
    "Verif.Whole.C73_answer_partial",
    "Verif.Whole.C73_groups_partial",
    "Verif.Whole.Example.C73_example",
    "Verif.Whole.Example.C73_groups_example"
   ],
   "note": "Acceptance for all arguments. C73_suppress holds for all sessions, tables and budgets; assumed of core: counts are integers (WholeCounts); the count has another name than the group-by columns. C73_answer_partial and C73_groups_partial are for chains of calls, with the exclusions of C72; assumed of core: SomeGroups, AllGroups, NoNoise. Requests for groups that list no columns of a table that has only an ID column are left aside."
  },
  {
   "property": "C74",
   "status": "partial",
   "theorems": [
    "Verif.Program.C74_builders",
    "Verif.Program.C74_queries",
    "Verif.Program.C74_accepts",
    "Verif.Program.C74_accepts_join",
    "Verif.Program.C74_answer_partial",
    "Verif.Program.C74_suppress_partial",
    "Verif.Program.C74_groups_partial",
    "Verif.Program.Example.checks_faithful",
    "Verif.Program.Example.program_replayed",
    "Verif.Program.Example.C74_example"
   ],
   "note": "All programs of calls. Faithful says that the oracle of Builder/Heap makes the checks of Whole/Chain; it is shown to exist. Answers have the exclusions of C72 and C73."
  },
  {
   "property": "C75",
   "status": "partial",
   "theorems": [
    "Verif.Bins.C75_accepts",
    "Verif.Bins.C75_errors",
    "Verif.Bins.C75_call",
    "Verif.Bins.C75_descriptor",
    "Verif.Bins.C75_names",
    "Verif.Bins.C75_bins",
    "Verif.Bins.C75_histogram_accepts",
    "Verif.Bins.C75_histogram_partial",
    "Verif.Bins.Example.C75_names_example",
    "Verif.Bins.Example.C75_example"
   ],
   "note": "Construction, names and bins of values for all arguments; only the answer of a histogram is partial, with the exclusions of C72. How Python writes strings, dates and timestamps is a contract (Format)."
  },
  {
   "property": "C76",
   "status": "partial",
   "theorems": [
    "Verif.Whole.C76_fits",
    "Verif.Whole.C76_view_partial",
    "Verif.Whole.C76_answered",
    "Verif.Whole.Example.C76_example",
    "Verif.Whole.Example.C76_missing",
    "Verif.Whole.Example.C76_key_error"
   ],
   "note": "The checks are characterised in full, for all chains (C76_fits); nothing that does not fit is answered or added. That a view that fits is created is partial: Ready lists the cases where the code fails after its checks (C62). Dictionaries have distinct keys (Kept). Assumed of Spark: whether an SQL condition is valid depends on names and types of the columns."
  },
  {
   "property": "C77",
   "status": "partial",
   "theorems": [
    "Verif.Whole.C77_table",
    "Verif.Whole.C77_name",
    "Verif.Whole.C77_view",
    "Verif.Whole.C77_answer_partial",
    "Verif.Whole.C77_groups_partial",
    "Verif.Whole.C77_grouped_partial",
    "Verif.Whole.C77_groups_shown",
    "Verif.Whole.C77_public_fails",
    "Verif.Whole.Example.C77_example",
    "Verif.Whole.Example.C77_rows_example",
    "Verif.Whole.Example.C77_query_example"
   ],
   "note": "Tables, names of private tables and builders in full. Answers are partial: the exclusions of C59 (an output column with the name of a group-by column, null keys for columns without nulls), and core by contract (RowsOf, OneRowPerKey). A public table cannot be described by its name (C77_public_fails). The layout of the text (tabulate) and the text of constraints are not modelled."
  },
  {
   "property": "C78",
   "status": "proved",
   "theorems": [
    "Verif.Composition.within_bind",
    "Verif.Whole.C78_derived",
    "Verif.Whole.Example.C78_example"
   ],
   "note": "For every analyst and every number of calls, and any function of the answers with its own randomness. Core by the contract of C56."
  },
  {
   "property": "C79",
   "status": "proved",
   "theorems": [
    "Verif.Composition.PureClose.trans",
    "Verif.Composition.ApproxClose.trans",
    "Verif.Composition.ZCDPClose.trans",
    "Verif.Whole.C79_group",
    "Verif.Whole.C79_rows",
    "Verif.Whole.C79_ids",
    "Verif.Whole.Example.C79_rows_example",
    "Verif.Whole.Example.C79_ids_example"
   ],
   "note": "For every analyst and every number of calls, and each notion of privacy. Core by the contract of C56."
  },
  {
   "property": "C80",
   "status": "proved",
   "theorems": [
    "Verif.Whole.C80_evaluate",
    "Verif.Whole.C80_view",
    "Verif.Whole.Example.Rewrite.C80_example",
    "Verif.Whole.Example.Rewrite.C80_map_example",
    "Verif.Whole.Example.Rewrite.C80_enforce_fails"
   ],
   "note": "The results of the calls are equal, with the measurement that core is asked for. Equivalent is the closure of the laws under all constructors. C80_enforce_fails shows that the law for enforce does not hold."
  },
  {
   "property": "C81",
   "status": "proved",
   "theorems": [
    "Verif.Composition.C81_several",
    "Verif.Whole.C81_sessions",
    "Verif.Whole.Example.C81_example",
    "Verif.Composition.C81_adaptive",
    "Verif.Whole.C81_opened",
    "Verif.Whole.Example.C81_opened_example"
   ],
   "note": "For all three kinds of budgets. C81_sessions: number of sessions and budgets chosen beforehand, the calls not. C81_opened: tables (from any collection) and budgets of further sessions chosen on the way, within a total; PureDPBudget and ApproxDPBudget may be mixed. Core by the contract of C56."
  },
  {
   "property": "C82",
   "status": "proved",
   "theorems": [
    "Verif.Whole.C82_unread",
    "Verif.Whole.C82_protected",
    "Verif.Whole.Example.C82_example",
    "Verif.Whole.Example.C82_protected_example"
   ],
   "note": "C82_unread assumes nothing about core's measurements nor about the budget. C82_protected has core by the contract of C56."
  },
  {
   "property": "C83",
   "status": "partial",
   "theorems": [
    "Verif.Session.C83_exception_partial",
    "Verif.Session.C83_partition",
    "Verif.Session.C83_components",
    "Verif.Session.C83_difference",
    "Verif.Session.C83_amounts",
    "Verif.Session.Demo.C83_example",
    "Verif.Session.Demo.C83_mixed_fails",
    "Verif.Session.Demo.C83_zero_difference"
   ],
   "note": "Not so in one case: a PureDPBudget that is too large for a session with an ApproxDPBudget makes evaluate raise AnalyticsInternalError (C83_mixed_fails; C83_exception_partial shows that this is the only case). Differences below 0.0005 are shown as 0 though they are printed in scientific notation (C83_zero_difference). C83_components assumes that the remaining amounts are not subnormal floats. The last step of formatting is not modelled."
  },
  {
   "property": "C84",
   "status": "proved",
   "theorems": [
    "Verif.Whole.C84_order",
    "Verif.Whole.Example.C84_example"
   ],
   "note": "Assumed of core: the noise does not depend on the order of rows. Functions given to flat_map_by_id do not depend on the order of the rows of an ID (Admissible). The hash orders of core tell different rows apart; the choice among equally cheap truncations (section 5) is the same in both sessions."
  },
  {
   "property": "C85",
   "status": "proved",
   "theorems": [
    "Verif.Session.C85_used",
    "Verif.Session.C85_refused",
    "Verif.Session.C85_told",
    "Verif.Whole.C85_session",
    "Verif.Session.C85_spent",
    "Verif.Session.C85_spent_refused",
    "Verif.Whole.C85_spends",
    "Verif.Whole.C85_keys",
    "Verif.Whole.C85_noise_keys",
    "Verif.Whole.Example.C85_keys_example",
    "Verif.Whole.Example.C85_noise_example"
   ],
   "note": "Noise is what decides about it: budget, mechanism, norm, task, sensitivity. That core reads these from the measurement, and its noise parameters, are in C44 and core. Which rows the answer has is C66."
  },
  {
   "property": "C86",
   "status": "partial",
   "theorems": [
    "Verif.Whole.C86_succeeds_partial",
    "Verif.Whole.C86_checks",
    "Verif.Whole.C86_means",
    "Verif.Whole.C86_raises",
    "Verif.Whole.C86_hint_fails",
    "Verif.Whole.Example.C86_example"
   ],
   "note": "Not so for the hint about the configuration of Spark: it is replaced by a general message, because the handler looks for a text that no exception has (C86_hint_fails). Core by the contract that grouped counts have one row for each key (CountsByKey). Spark, pandas and Java are not modelled."
  },
  {
   "property": "C87",
   "status": "proved",
   "theorems": [
    "Verif.Query.C87_compile",
    "Verif.Whole.C87_noise",
    "Verif.Whole.C87_answered",
    "Verif.Whole.C87_less",
    "Verif.Whole.Example.C87_example",
    "Verif.Whole.Example.C87_delta_matters"
   ],
   "note": "That the budgets are zero in the same components is needed: automatic keys need a positive delta (C87_delta_matters). How much noise a budget gives is core's."
  },
  {
   "property": "C88",
   "status": "partial",
   "theorems": [
    "Verif.Expr.compile_inline",
    "Verif.Query.C88_compile",
    "Verif.Whole.compileM_inline",
    "Verif.Whole.C88_view_partial",
    "Verif.Whole.C88_program_partial",
    "Verif.Whole.Example.C88_example",
    "Verif.Whole.Example.C88_fails"
   ],
   "note": "False of the code for views with flat maps that group, in zCDP sessions (C88_fails: with Laplace noise the query about the view raises ValueError, written out it is answered). Proved for all other views, and all queries whose filters are accepted or not by what Spark sees of the schema (FiltersBySpark: the code tries the condition on an empty Spark data frame)."
  },
  {
   "property": "C89",
   "status": "proved",
   "theorems": [
    "Verif.Query.C89_compile",
    "Verif.Whole.compileM_named",
    "Verif.Whole.C89_sessions",
    "Verif.Whole.C89_unnamed",
    "Verif.Whole.transform_named",
    "Verif.Whole.partTab_named",
    "Verif.Whole.Example.C89_example",
    "Verif.Whole.Example.C89_named_matters"
   ],
   "note": "C89_sessions is about two sessions with any history; C89_unnamed about one call in between. Sessions are alike in the measurement that runs, so in their random answers as well."
  },
  {
   "property": "C90",
   "status": "proved",
   "theorems": [
    "Verif.Whole.C90_swap",
    "Verif.Whole.C90_any_order",
    "Verif.Whole.C90_queries",
    "Verif.Whole.Example.C90_queries_example",
    "Verif.Whole.Example.C90_example",
    "Verif.Whole.Example.C90_example_answered",
    "Verif.Whole.Example.C90_dependent"
   ],
   "note": "C90_swap also gives the outcome of both calls; C90_any_order is about lists of calls of any length. C90_dependent shows that the order does matter for views that use each other."
  },
  {
   "property": "C91",
   "status": "proved",
   "theorems": [
    "Verif.Whole.C91_unused",
    "Verif.Whole.C91_deleted",
    "Verif.Whole.C91_reused",
    "Verif.Whole.Example.C91_example",
    "Verif.Whole.Example.C91_example_answered",
    "Verif.Whole.Example.C91_used"
   ],
   "note": "All sequences of calls of the session by induction; partition_and_create and stop are not among the calls in between."
  },
  {
   "property": "C92",
   "status": "proved",
   "theorems": [
    "Verif.Whole.C92_renamed",
    "Verif.Whole.Example.C92_example",
    "Verif.Whole.Example.C92_example_answered"
   ],
   "note": "Any number of queries, by induction. The conditions of filters look only at what Spark sees of a schema, as in the code (FiltersBySpark, see C88)."
  },
  {
   "property": "C93",
   "status": "proved",
   "theorems": [
    "Verif.Whole.C93_others",
    "Verif.Whole.Example.C93_example",
    "Verif.Whole.Example.C93_example_answered"
   ],
   "note": "All sequences of calls on other sessions, by induction. That public tables of other sessions are visible when they are named is C47. Which calls stop a session is C08."
  },
  {
   "property": "C94",
   "status": "proved",
   "theorems": [
    "Verif.Whole.C94_each_first",
    "Verif.Whole.C94_any_order",
    "Verif.Whole.C94_infinite",
    "Verif.Whole.Example.C94_infinite_example",
    "Verif.Whole.Example.C94_example",
    "Verif.Whole.Example.C94_example_answered",
    "Verif.Whole.Example.C94_exceeded"
   ],
   "note": "Any number of queries, by induction. IEEE rounding by contract (Rounding.Lawful). C94_exceeded shows that the sum of the budgets matters, also within the tolerance. Answers are alike in the measurement that runs, so in distribution."
  }
 ]
}