{"id": "C01", "title": "Privacy budget is never overspent", "statement": "However a user drives a Session (evaluate, partition_and_create, create_view, delete_view, add_public_dataframe, stop, and the same calls on any session obtained by partitioning), the budget charged for everything that was released, counted in exact arithmetic with parallel composition across partitions, never exceeds the budget the session was created with.", "quantifier": "every finite history of calls on a session and all its descendants, every budget kind, every query and every requested budget", "why_tests_cant": "The claim is about unbounded interleavings of calls over a growing tree of sessions and about accumulated rounding; a test fixes one script and one set of numbers.", "anchors": ["src/tmlt/analytics/session.py: Session.evaluate, Session.partition_and_create, Session._process_requested_budget, Session._activate_accountant, Session.stop", "src/tmlt/analytics/privacy_budget.py: _get_adjusted_budget"]}
{"id": "C02", "title": "A rejected call changes nothing", "statement": "If evaluate, partition_and_create, create_view, delete_view or add_public_dataframe raises because of its arguments (unknown table, bad budget type, zero budget, insufficient budget, invalid query, name clash), then afterwards the remaining budget, the set of private sources, views and public sources and their schemas are exactly what they were before the call.", "quantifier": "every session state and every argument for which the call raises", "why_tests_cant": "There are unboundedly many ways for a call to fail and a partial effect would only show up in later calls.", "anchors": ["src/tmlt/analytics/session.py: Session.evaluate, Session.create_view, Session.delete_view, Session.partition_and_create, Session.add_public_dataframe"]}
{"id": "C03", "title": "Budget decision matches the reported remaining budget", "statement": "A well-formed query with a positive finite budget of the right kind is accepted when the request is at most the budget reported by remaining_privacy_budget, or exceeds it by at most one part in 10^9; it is rejected with an insufficient-budget error when some component exceeds the reported remaining budget by more than that.", "quantifier": "every remaining budget (including values that are not exactly representable as floats) and every requested budget", "why_tests_cant": "The boundary is a relative tolerance on reals composed with a float round-down; tests sample a handful of values.", "anchors": ["src/tmlt/analytics/session.py: Session._process_requested_budget, Session.evaluate, Session.remaining_privacy_budget", "src/tmlt/analytics/privacy_budget.py: _requested_budget_is_slightly_higher_than_remaining, _get_adjusted_budget_number"]}
{"id": "C04", "title": "Tolerance adjustment never charges beyond what is left", "statement": "When a request is slightly above the remaining budget it is lowered to exactly the remaining budget; otherwise it is charged exactly as requested. The amount used is never larger than the request, and the relative change is at most 10^-9 of the remaining budget.", "quantifier": "every pair (requested, remaining) of budgets of the same kind, finite or infinite", "why_tests_cant": "Quantifies over all reals including infinity and zero remaining.", "anchors": ["src/tmlt/analytics/privacy_budget.py: _requested_budget_is_slightly_higher_than_remaining, _get_adjusted_budget_number, _get_adjusted_budget"]}
{"id": "C05", "title": "Infinite budgets stay infinite", "statement": "A session created with an infinite budget still reports an infinite remaining budget after any history of calls that keeps it usable, and never rejects a request for lack of budget.", "quantifier": "every history of calls on a session whose initial budget is infinite", "why_tests_cant": "Needs all histories and the interaction of infinity with every budget operation.", "anchors": ["src/tmlt/analytics/session.py: Session._process_requested_budget, Session.remaining_privacy_budget", "src/tmlt/analytics/privacy_budget.py: ApproxDPBudget.is_infinite"]}
{"id": "C06", "title": "Spending everything that is reported is always possible", "statement": "evaluate(query, session.remaining_privacy_budget) on a well-formed query is never rejected for insufficient budget and the reported remaining budget never increases over time.", "quantifier": "every reachable session state", "why_tests_cant": "Depends on rounding direction of the reported budget for all exact values reachable by subtraction.", "anchors": ["src/tmlt/analytics/session.py: Session.remaining_privacy_budget, Session.evaluate"]}
{"id": "C07", "title": "Partitioning is charged once (parallel composition)", "statement": "partition_and_create reduces the parent's remaining budget by the requested amount exactly once, whatever the number of parts; each part gets exactly that amount as its own total; and nothing done in any part changes the parent's remaining budget afterwards.", "quantifier": "every number of parts, every nesting depth, every sequence of operations in the parts", "why_tests_cant": "A statement about arbitrarily wide and deep session trees.", "anchors": ["src/tmlt/analytics/session.py: Session.partition_and_create, Session._activate_accountant"]}
{"id": "C08", "title": "Only one session of a tree can run queries at a time, and a superseded one never again", "statement": "Among a session and all sessions obtained from it by repeated partitioning, using one for a query or a partition retires every other one that was left behind (earlier siblings with their descendants, and own descendants); a retired session can never answer a query or be partitioned again.", "quantifier": "every interleaving of calls on the sessions of a tree", "why_tests_cant": "Interleavings over trees of unbounded size.", "anchors": ["src/tmlt/analytics/session.py: Session._activate_accountant, Session.evaluate, Session.partition_and_create, Session.stop"]}
{"id": "C09", "title": "Budget arithmetic is well defined and consistent", "statement": "Adding, subtracting, scaling and dividing PrivacyBudget values never yields an invalid budget (negative, NaN, delta outside [0,1]): either a valid budget or an exception; addition is commutative and associative up to the delta cap, zero is neutral, subtraction undoes addition for finite budgets when the cap is not hit, infinity absorbs.", "quantifier": "all budgets of the three kinds and all scalars", "why_tests_cant": "Algebraic laws over all values.", "anchors": ["src/tmlt/analytics/privacy_budget.py: PureDPBudget, ApproxDPBudget, RhoZCDPBudget (__add__, __sub__, __mul__, __truediv__)"]}
{"id": "C10", "title": "Budget equality is an equivalence compatible with hashing", "statement": "== on privacy budgets is reflexive, symmetric and transitive, all infinite budgets of one kind are equal, budgets of different kinds are never equal, and equal budgets have equal hashes.", "quantifier": "all pairs and triples of budgets", "why_tests_cant": "Equivalence laws range over all triples.", "anchors": ["src/tmlt/analytics/privacy_budget.py: __eq__, __hash__, is_infinite"]}
{"id": "C11", "title": "Budget kind and zero-budget gatekeeping", "statement": "evaluate accepts a budget only if it is of the session's kind, or a pure budget in an approximate session (treated as delta = 0), and never answers a query with a zero budget.", "quantifier": "every session kind and every budget value", "why_tests_cant": "All combinations of kinds and values.", "anchors": ["src/tmlt/analytics/session.py: Session._compile_and_get_info, Session.evaluate"]}
{"id": "C12", "title": "Binning puts a value in the unique bin that contains it", "statement": "For a BinningSpec with strictly increasing edges, calling it on a value returns the name of the i-th bin exactly when the value lies between edge i and edge i+1 with the configured closed side (and both ends closed on the outermost bin if requested), and returns the NaN bin for NaN, and None for null or out-of-range values.", "quantifier": "every list of edges, both values of right and include_both_endpoints, every value", "why_tests_cant": "bisect over every sorted list and boundary equality cases.", "anchors": ["src/tmlt/analytics/binning_spec.py: BinningSpec.__init__, BinningSpec.__call__"]}
{"id": "C13", "title": "bins() lists exactly the reachable bin names", "statement": "Every non-null name a BinningSpec can assign to some value is in bins(), every listed name is some bin's name, and the list has no duplicates; hence a histogram groups on a KeySet covering every in-range value exactly once.", "quantifier": "every BinningSpec including duplicate names and a NaN bin", "why_tests_cant": "Coverage claim over all values and all specs.", "anchors": ["src/tmlt/analytics/binning_spec.py: BinningSpec.bins, BinningSpec.__call__", "src/tmlt/analytics/query_builder.py: QueryBuilder.histogram"]}
{"id": "C14", "title": "Simplifying constraints preserves their meaning", "statement": "Replacing the constraints attached to a table by their simplified list never changes which tables satisfy them; the result has at most one constraint of each kind per column and simplifying twice is the same as once.", "quantifier": "every list of constraints and every table", "why_tests_cant": "Semantic equivalence over all tables.", "anchors": ["src/tmlt/analytics/constraints/_simplify.py: simplify_constraints", "src/tmlt/analytics/constraints/_truncation.py: simplify_truncation_constraints"]}
{"id": "C15", "title": "Enforced constraints hold, and enforcement only drops rows", "statement": "Enforcing MaxRowsPerID, MaxGroupsPerID or MaxRowsPerGroupPerID yields a sub-table that satisfies the constraint, keeps every other constraint that already held, changes nothing if the constraint already held, and is deterministic per ID (what is kept for one ID depends only on that ID's rows).", "quantifier": "every table with IDs, every bound n >= 1", "why_tests_cant": "All tables, all multiplicities, all orders of rows.", "anchors": ["src/tmlt/analytics/constraints/_truncation.py: MaxRowsPerID._enforce, MaxGroupsPerID._enforce, MaxRowsPerGroupPerID._enforce", "src/tmlt/analytics/query_builder.py: QueryBuilder.enforce"]}
{"id": "C16", "title": "Constraints remembered through transformations are true", "statement": "Whenever the compiler carries a constraint of the input table over to the output of filter, rename, select, map, flat_map, flat_map_by_id, replace/drop null/NaN/infinity, join_public or join_private, the output table really satisfies it.", "quantifier": "every transformation expression, every function passed to map/flat_map, every input table satisfying the input constraints", "why_tests_cant": "Higher-order quantification over user functions and tables.", "anchors": ["src/tmlt/analytics/_query_expr_compiler/_constraint_propagation.py: propagate_*", "src/tmlt/analytics/_query_expr_compiler/_base_transformation_visitor.py: visit_*"]}
{"id": "C17", "title": "Truncation bounds each ID's influence", "statement": "After the truncation chosen for an aggregation on an ID table, adding or removing all rows of one ID changes the table that is aggregated by at most the number of rows used as sensitivity (and, with a group bound, at most g groups with at most r rows each).", "quantifier": "every table, every ID, every list of constraints for which the compiler finds a truncation", "why_tests_cant": "A two-run (relational) property over all neighbouring tables.", "anchors": ["src/tmlt/analytics/_query_expr_compiler/_base_measurement_visitor.py: _get_truncatable_constraints, _constraint_stability, _truncate_table"]}
{"id": "C18", "title": "The cheapest applicable truncation is used", "statement": "Among the truncations available from the constraints, the compiler uses one with the least sensitivity for the current privacy notion, and raises if and only if there is none.", "quantifier": "every list of constraints, both privacy metrics", "why_tests_cant": "Optimality over all lists.", "anchors": ["src/tmlt/analytics/_query_expr_compiler/_base_measurement_visitor.py: _truncate_table, _constraint_stability"]}
{"id": "C19", "title": "Computed schemas describe the data actually produced", "statement": "If the private tables conform to their declared schemas (columns, types, and no null/NaN/inf where disallowed), then the table produced by any transformation query conforms to the schema that Session.describe/get_schema reports for the corresponding view.", "quantifier": "every transformation expression accepted by validation, every conforming input, every user function that respects its declared output types", "why_tests_cant": "Type-soundness over an unbounded expression language.", "anchors": ["src/tmlt/analytics/_query_expr.py: *.schema", "src/tmlt/analytics/_query_expr_compiler/_base_transformation_visitor.py: visit_*", "src/tmlt/analytics/session.py: Session.create_view, Session.get_schema"]}
{"id": "C20", "title": "The privacy ID column survives every transformation", "statement": "On a table with a privacy ID column, every accepted transformation yields a table that still has the ID column (under its possibly renamed name) in the same ID space, and each output row carries an ID of an input row from which it was computed; transformations that would lose or alter the ID are rejected.", "quantifier": "every transformation expression and every input table", "why_tests_cant": "Needs induction over the expression language.", "anchors": ["src/tmlt/analytics/_query_expr.py: Rename, Select, Map, FlatMap, FlatMapByID, ReplaceNullAndNan, DropNullAndNan, DropInfinity, ReplaceInfinity, JoinPrivate, JoinPublic (schema/_validate)"]}
{"id": "C21", "title": "Required grouping columns are enforced", "statement": "After a grouping flat_map, every accepted aggregation groups on the grouping column, and no accepted transformation removes, renames away or overwrites it silently.", "quantifier": "every accepted expression above a grouping flat_map", "why_tests_cant": "Induction over the expression language.", "anchors": ["src/tmlt/analytics/_query_expr.py: FlatMap, _validate_groupby, Select, Map, Rename"]}
{"id": "C22", "title": "KeySet optimisation does not change the rows", "statement": "The rewrites applied to a KeySet before it is used (projection push-down, projection collapsing, cross-join merging and ordering, in-memory evaluation, cross-join extraction from joins and subtractions, join/union/subtract normalisation) never change the set of key rows.", "quantifier": "every KeySet built from the public constructors and operators", "why_tests_cant": "Semantic preservation of a rewrite system over all expression trees.", "anchors": ["src/tmlt/analytics/keyset/_ops/_rules.py: rewrite, project_across_crossjoin, collapse_nested_projections, merge_cross_joins, order_cross_joins, extract_crossjoin_from_join, extract_crossjoin_from_subtract, normalize_joins"]}
{"id": "C23", "title": "KeySet operators mean the relational operators", "statement": "For KeySets: * is the cross product, projection keeps the projected rows, join is the natural join, union is the union, - removes exactly the rows that match on the right operand's columns, filter keeps matching rows; the result has no duplicate rows and exactly the documented columns.", "quantifier": "all KeySets and all operands for which the operation is accepted", "why_tests_cant": "All relations.", "anchors": ["src/tmlt/analytics/keyset/_keyset.py: KeySet.__mul__, __getitem__, join, union, __sub__, filter", "src/tmlt/analytics/keyset/_ops/"]}
{"id": "C24", "title": "KeySet.size() equals the number of rows", "statement": "KeySet.size() (and the internal fast path) equals the number of distinct rows of KeySet.dataframe(); a KeySet without columns counts as one group, the total.", "quantifier": "every KeySet", "why_tests_cant": "All expression trees incl. degenerate zero-column ones.", "anchors": ["src/tmlt/analytics/keyset/_keyset.py: KeySet.size", "src/tmlt/analytics/keyset/_ops/: size, is_empty"]}
{"id": "C25", "title": "KeySet equality and equivalence", "statement": "k1 == k2 iff the KeySets have the same columns with the same types and the same rows up to column order; it is an equivalence; equal KeySets have equal hashes; is_equivalent never returns True for KeySets with different rows.", "quantifier": "all pairs of KeySets", "why_tests_cant": "All pairs.", "anchors": ["src/tmlt/analytics/keyset/_keyset.py: KeySet.__eq__, KeySet.__hash__, KeySet.is_equivalent, KeySetPlan.is_equivalent"]}
{"id": "C26", "title": "KeySet decomposition recombines to the original", "statement": "Decomposing a KeySet on a set of split columns gives factors and subtracted values such that a row is in the KeySet iff its parts are in every factor and in no subtracted value; the columns of the factors are together those of the KeySet, two factors share split columns only, and subtracted values only have columns of the KeySet.", "quantifier": "every KeySet and every column split", "why_tests_cant": "All expression trees.", "anchors": ["src/tmlt/analytics/keyset/_keyset.py: KeySet._decompose", "src/tmlt/analytics/keyset/_ops/: decompose"]}
{"id": "C27", "title": "Group-by answers have exactly one row per key", "statement": "The table aggregated for a group-by query has exactly one group per row of the KeySet: keys absent from the data appear with the empty aggregate, values absent from the KeySet are ignored.", "quantifier": "every KeySet, every table", "why_tests_cant": "All tables.", "anchors": ["src/tmlt/analytics/_query_expr_compiler/_base_measurement_visitor.py: visit_groupby_count", "src/tmlt/analytics/query_builder.py: QueryBuilder.groupby"]}
{"id": "C28", "title": "Noise mechanism selection is total and valid", "statement": "Every accepted aggregation gets a concrete core mechanism; Gaussian noise is only ever selected under zCDP; integer-valued aggregates get integer noise; an explicitly requested mechanism family is respected or the query is rejected; selection is idempotent and touches nothing else in the query.", "quantifier": "every query expression tree, every privacy notion, every schema", "why_tests_cant": "All trees.", "anchors": ["src/tmlt/analytics/_query_expr_compiler/_rewrite_rules.py: select_noise_mechanism"]}
{"id": "C29", "title": "Special values are handled before aggregation", "statement": "When a column that may contain nulls, NaNs or infinities is aggregated with sum, average, variance, stdev, quantile or get_bounds, no null, NaN or infinity reaches the aggregation: nulls and NaNs are dropped, infinities are replaced by the clamping bounds (dropped for get_bounds), and the result of the aggregation on clean data is unaffected.", "quantifier": "every schema, every table conforming to it, every aggregation", "why_tests_cant": "All tables and schemas.", "anchors": ["src/tmlt/analytics/_query_expr_compiler/_rewrite_rules.py: add_special_value_handling"]}
{"id": "C30", "title": "Automatic partition selection splits the budget exactly", "statement": "With automatic partition selection the budget used for choosing keys plus the budget used for the aggregation equals the requested budget in both epsilon and delta, with delta used only for key selection; for infinite budgets both parts are infinite.", "quantifier": "every approximate budget", "why_tests_cant": "All reals.", "anchors": ["src/tmlt/analytics/_query_expr_compiler/_base_measurement_visitor.py: _split_auto_partition_budget, _validate_approxDP_and_adjust_budget"]}
{"id": "C31", "title": "Delta is not wasted and not exceeded", "statement": "For noise-addition queries with a KeySet the compiled measurement uses delta = 0 and the requested epsilon; in no case does the measurement use more than the requested epsilon or delta.", "quantifier": "every approximate budget and every query kind", "why_tests_cant": "All reals, all queries.", "anchors": ["src/tmlt/analytics/_query_expr_compiler/_base_measurement_visitor.py: _validate_approxDP_and_adjust_budget"]}
{"id": "C32", "title": "suppress keeps exactly the rows at or above the threshold", "statement": "suppress(t) post-processing returns the rows of the count answer whose count is at least t, in the same form, and adds no privacy cost.", "quantifier": "every answer table and threshold", "why_tests_cant": "All tables.", "anchors": ["src/tmlt/analytics/query_builder.py: _PostProcessSuppressMixin.suppress", "src/tmlt/analytics/_query_expr_compiler/_base_measurement_visitor.py: visit_suppress_aggregates"]}
{"id": "C33", "title": "Session construction covers each table exactly once", "statement": "A relation is accepted for a set of tables iff it covers every table exactly once and its grouping and ID columns exist with usable types, the same for all ID columns of an ID space. A set of private tables with protected changes is therefore accepted iff those column conditions hold; the session's input domain then contains exactly those tables, each in one place, with its data, and with the metric and distance of its protected change.", "quantifier": "every collection of tables and protected changes", "why_tests_cant": "Unbounded collections.", "anchors": ["src/tmlt/analytics/_neighboring_relation.py: Conjunction, AddRemoveKeys, AddRemoveRows, AddRemoveRowsAcrossGroups", "src/tmlt/analytics/session.py: _generate_neighboring_relation"]}
{"id": "C34", "title": "Protected change determines the distance", "statement": "Two databases that differ as described by the protected change (n rows; at most g groups of at most r rows; k IDs) are at most the distance the session was initialised with: n, g*r (sqrt(g)*r for zCDP), k.", "quantifier": "all pairs of neighbouring databases", "why_tests_cant": "Two-run property over all databases.", "anchors": ["src/tmlt/analytics/_neighboring_relation_visitor.py: NeighboringRelationCoreVisitor", "src/tmlt/analytics/protected_change.py"]}
{"id": "C35", "title": "Table references find the table they were created for", "statement": "Looking up a table identifier in a nested domain returns a reference that leads exactly to that table's domain, each table is found exactly once, and two different tables never share a reference.", "quantifier": "every nested dictionary of tables", "why_tests_cant": "Arbitrary nesting.", "anchors": ["src/tmlt/analytics/_table_reference.py: find_reference, find_named_tables, lookup_domain"]}
{"id": "C36", "title": "Views: create then delete restores the session", "statement": "create_view makes exactly one new private name with the schema of the query; delete_view of that name restores the previous set of private sources; names of private sources, views and public tables never clash; deleting other names is rejected.", "quantifier": "every session state and every sequence of create/delete", "why_tests_cant": "All histories.", "anchors": ["src/tmlt/analytics/session.py: Session.create_view, Session.delete_view, Session.add_public_dataframe", "src/tmlt/analytics/_catalog.py"]}
{"id": "C37", "title": "Session builder keeps names and ID spaces unique", "statement": "After any sequence of builder calls, names of private and public tables are pairwise distinct valid identifiers, ID spaces are distinct, accepted calls never replace what was given before and rejected calls change nothing, and build() succeeds iff a budget is set, there is a private table, the columns named in protected changes are usable, and every AddRowsWithID table refers to a declared ID space (or the single-table default); the session holds the given budget and tables.", "quantifier": "every sequence of builder calls", "why_tests_cant": "All call sequences.", "anchors": ["src/tmlt/analytics/_base_builder.py: DataFrameMixin, PrivacyBudgetMixin", "src/tmlt/analytics/session.py: Session.Builder"]}
{"id": "C38", "title": "FrozenDict behaves as an immutable ordered map", "statement": "Converting a dict to FrozenDict and back gives the same entries in the same order; lookup agrees with dict lookup; equality holds iff entries and order agree; equal FrozenDicts have equal hashes; merging agrees with dict merge.", "quantifier": "all finite maps", "why_tests_cant": "All maps.", "anchors": ["src/tmlt/analytics/_schema.py: FrozenDict"]}
{"id": "C39", "title": "Schema conversion round-trips", "statement": "Converting an Analytics schema to Spark column descriptors and back returns the same columns; coercing a Spark schema always yields supported types and coercing twice equals coercing once; values representable in the source type are preserved.", "quantifier": "every schema", "why_tests_cant": "All schemas.", "anchors": ["src/tmlt/analytics/_schema.py: analytics_to_spark_columns_descriptor, spark_dataframe_domain_to_analytics_columns, analytics_to_spark_schema, spark_schema_to_analytics_columns", "src/tmlt/analytics/_coerce_spark_schema.py"]}
{"id": "C40", "title": "Schema equality is compatible with hashing", "statement": "Equal Schemas have equal hashes, as required for using them as dictionary keys.", "quantifier": "all pairs of schemas", "why_tests_cant": "All pairs.", "anchors": ["src/tmlt/analytics/_schema.py: Schema.__eq__, Schema.__hash__"]}
{"id": "C41", "title": "Column renaming is injective on columns", "statement": "An accepted rename keeps the number of columns and maps each old column to its new name with the same descriptor; two columns never collapse into one.", "quantifier": "every schema and mapper", "why_tests_cant": "All mappers.", "anchors": ["src/tmlt/analytics/_query_expr.py: Rename.schema", "src/tmlt/analytics/query_builder.py: QueryBuilder.rename"]}
{"id": "C42", "title": "Collection validation decides set inclusion", "statement": "Schema/collection validation against required and optional members succeeds iff all required members are present and nothing else than required or optional members is present.", "quantifier": "all collections", "why_tests_cant": "All sets.", "anchors": ["src/tmlt/analytics/_utils.py: validate_collection"]}
{"id": "C43", "title": "Feature-flag contexts restore the previous setting", "statement": "Entering and leaving any properly nested sequence of enabled()/disabled() contexts leaves every flag as before, even if the body raises.", "quantifier": "every nesting and every body", "why_tests_cant": "Arbitrary nesting.", "anchors": ["src/tmlt/analytics/config.py: FeatureFlag.enabled, FeatureFlag.disabled"]}
{"id": "C44", "title": "Noise information lists every noise source exactly once in order", "statement": "The noise information reported for a query contains one entry for each noise-adding component of the measurement, in order, and nothing else.", "quantifier": "every measurement tree", "why_tests_cant": "All trees.", "anchors": ["src/tmlt/analytics/_noise_info.py: _noise_from_measurement, _get_info"]}
{"id": "C45", "title": "Queries are unaffected by later use of the builder", "statement": "A Query object obtained from a QueryBuilder denotes the same query after any further calls on that builder or on builders it was combined with.", "quantifier": "every sequence of builder calls", "why_tests_cant": "All call sequences with aliasing.", "anchors": ["src/tmlt/analytics/query_builder.py: QueryBuilder, GroupedQueryBuilder"]}
{"id": "C46", "title": "Equal queries give the same results", "statement": "Query equality (==, used for caching) only identifies queries that denote the same computation.", "quantifier": "all pairs of queries", "why_tests_cant": "All pairs, incl. user functions.", "anchors": ["src/tmlt/analytics/query_builder.py: Query.__eq__, Query._is_equivalent", "src/tmlt/analytics/_query_expr.py: Map.__eq__, FlatMap.__eq__, JoinPublic.__eq__"]}
{"id": "C47", "title": "Public tables of one session do not leak into another", "statement": "add_public_dataframe on a session adds the table to that session only, and never changes the sources of a session obtained by partitioning or of its parent.", "quantifier": "every session tree and history", "why_tests_cant": "Histories with aliasing.", "anchors": ["src/tmlt/analytics/session.py: Session.add_public_dataframe, Session.partition_and_create"]}
{"id": "C48", "title": "Flat-map and join truncation bound row-level influence", "statement": "On tables without IDs, adding or removing one input row changes the output of flat_map(max_rows=m) by at most m rows, and the output of join_private with truncation thresholds by at most the stability used for the budget.", "quantifier": "all pairs of neighbouring tables, all functions", "why_tests_cant": "Two-run property.", "anchors": ["src/tmlt/analytics/_query_expr_compiler/_base_transformation_visitor.py: visit_flat_map, visit_join_private", "src/tmlt/analytics/truncation_strategy.py"]}
{"id": "C49", "title": "count_distinct shortcut gives the count after truncation", "statement": "When constraints allow the compiler to answer count_distinct with a cheaper plan on an ID table, the exact (noise-free) answer equals the number of distinct values after the truncation.", "quantifier": "every table and constraint list", "why_tests_cant": "All tables.", "anchors": ["src/tmlt/analytics/_query_expr_compiler/_base_measurement_visitor.py: _generate_constrained_count_distinct"]}
{"id": "C50", "title": "Adaptive querying keeps the total privacy guarantee", "statement": "Assuming each answered query's mechanism is private for the budget passed to it, the joint distribution of everything an analyst sees while adaptively choosing queries on one session satisfies the session's total budget.", "quantifier": "every adaptive analyst strategy, every number of queries, every pair of neighbouring databases", "why_tests_cant": "A statement about distributions over all adaptive strategies.", "anchors": ["src/tmlt/analytics/session.py: Session.evaluate", "src/tmlt/analytics/privacy_budget.py"]}
{"id": "C51", "title": "Default bin names exist for every valid list of edges", "statement": "Constructing a binning spec from any strictly increasing list of at least two float edges, without giving names, succeeds and gives every bin its own name.", "quantifier": "every strictly increasing list of float edges", "why_tests_cant": "Depends on decimal formatting of all possible edge values; the failing cases are rare.", "anchors": ["src/tmlt/analytics/binning_spec.py: _edges_as_str, _default_bin_names, BinningSpec.__init__"]}
{"id": "C52", "title": "KeySet.schema() describes the rows", "statement": "KeySet.schema() lists exactly the columns of the KeySet in their order, and every value of every row of KeySet.dataframe() has the type it gives, with nulls only in columns it declares nullable.", "quantifier": "every KeySet built from the public constructors and operators", "why_tests_cant": "Depends on how each operator combines the types and nullability of its operands; tests look at single combinations.", "anchors": ["src/tmlt/analytics/keyset/_keyset.py: KeySet.schema, KeySet.dataframe", "src/tmlt/analytics/keyset/_ops/: schema"]}
{"id": "C53", "title": "Equal queries have equal hashes", "statement": "Two queries for which == returns True have the same hash(), so that queries can be used as dictionary keys and set members.", "quantifier": "every pair of queries obtained from the query builder", "why_tests_cant": "Tests compare hashes of a few chosen queries; a violation needs a pair that is equal but built differently.", "anchors": ["src/tmlt/analytics/_query_expr.py: QueryExpr dataclasses, __eq__ of Map/FlatMap/JoinPublic", "src/tmlt/analytics/query_builder.py: Query.__eq__"]}
{"id": "C54", "title": "Only a bounded part of the table reaching the noise depends on one protected unit", "statement": "Whatever transformations precede an aggregation: on tables without IDs, the table that is aggregated changes by at most the stability used for the noise when the input tables change by the protected number of rows; on tables with IDs, adding or removing one ID changes only rows of that ID, and no more of them per group and in all than the truncation that was chosen for the query allows.", "quantifier": "every query, every pair of databases, every truncation choice", "why_tests_cant": "Two-run property over all databases and all compositions of transformations.", "anchors": ["src/tmlt/analytics/_query_expr_compiler/_base_measurement_visitor.py: _truncate_table, visit_groupby_*", "src/tmlt/analytics/_query_expr_compiler/_base_transformation_visitor.py"]}
{"id": "C55", "title": "What a session promises for one call holds for its own tables", "statement": "A query that evaluate() accepts for a budget, on any tables, views or parts the session has, is private for that budget with respect to the protected change, proportionally for a share of the change; the columns, grouping column, ID column, ID space and sensitivity that a session keeps for a view or a part are right; the changes that the sessions of a partition see add up to no more than the change of the whole.", "quantifier": "every session state, query, view, partition and pair of neighbouring databases", "why_tests_cant": "Two-run property that joins compiler, truncation, noise and partition; a test sees single databases and single answers.", "anchors": ["src/tmlt/analytics/session.py: Session.evaluate, Session.create_view, Session.partition_and_create", "src/tmlt/analytics/_query_expr_compiler/_compiler.py", "src/tmlt/analytics/_query_expr_compiler/_base_measurement_visitor.py"]}
{"id": "C56", "title": "A session as a whole satisfies its privacy budget", "statement": "Build a session from private tables with protected changes. For any two databases that differ by what the protected changes allow (in all tables at once), building succeeds for both or for neither, shows the same tables and schemas, and everything an analyst can learn through any adaptive sequence of queries, views, partitions and public tables is as close as the total privacy budget promises.", "quantifier": "every builder call sequence, every pair of neighbouring databases, every adaptive analyst, every number of calls, all three privacy definitions", "why_tests_cant": "The guarantee of the library itself: a statement about distributions over all interactions and all pairs of databases.", "anchors": ["src/tmlt/analytics/session.py: Session, Session.Builder", "src/tmlt/analytics/_neighboring_relation_visitor.py", "src/tmlt/analytics/_query_expr_compiler/"]}
{"id": "C57", "title": "Transformations return what their documentation describes", "statement": "The table that a query's transformations produce has exactly the rows that the documentation of each method describes: rename keeps all rows with new column names, filter the rows that satisfy the condition, select the chosen columns, map one row per row, flat_map at most max_rows rows per row, flat_map_by_id the function's rows for each ID, private joins the matching pairs after each side was truncated as its strategy says, public joins the matching pairs and for how='left' also the unmatched rows, replace and drop methods change only the special values they name in the columns they name, and enforce keeps no more rows or groups per ID than its constraint allows.", "quantifier": "every composition of transformations, every catalog and database, every user function that returns the declared columns", "why_tests_cant": "Tests run single transformations on small tables; this is about all compositions and all data.", "anchors": ["src/tmlt/analytics/query_builder.py: QueryBuilder.join_public, join_private, replace_null_and_nan, replace_infinity, drop_null_and_nan, drop_infinity, rename, filter, select, map, flat_map, flat_map_by_id, enforce", "src/tmlt/analytics/truncation_strategy.py", "src/tmlt/analytics/_query_expr_compiler/_base_transformation_visitor.py"]}
{"id": "C58", "title": "A session computes on the data it was given", "statement": "The private tables of a new session are exactly those given to the builder, each under its name with all its rows and its protected change; a view holds what its query describes of the session's tables; each session made by a partition holds exactly the rows of the split table with its value; what is aggregated for a query is exactly the query's result. Rows are left out only where a constraint on the contributions of an ID is exceeded, so none are left out if the data meets the constraints.", "quantifier": "every builder, every sequence of views and partitions, every query and database", "why_tests_cant": "Depends on the interplay of names, references, constraints and truncation for all states of a session; noise hides missing rows from tests.", "anchors": ["src/tmlt/analytics/session.py: Session.Builder.build, Session.create_view, Session.partition_and_create, Session.evaluate", "src/tmlt/analytics/_query_expr_compiler/_compiler.py"]}
{"id": "C59", "title": "The schema shown for a query describes its answer", "statement": "When describe() shows a schema for an aggregation and evaluate() answers it, the answer has exactly the columns that the schema lists: the group-by columns, then the output columns. No value in the answer is of another type, and nulls, NaNs and infinities occur only in columns that the schema allows them in. The schema for get_groups() lists the columns of its answer in the same sense.", "quantifier": "every query, catalog, database, KeySet or list of columns, and every outcome of the noise", "why_tests_cant": "The schema is computed apart from the answer; tests compare them for single queries, and noise makes answers differ from run to run.", "anchors": ["src/tmlt/analytics/_query_expr.py: _validate_groupby, _schema_for_groupby, GetGroups.schema", "src/tmlt/analytics/session.py: Session.describe, _describe_query_obj, Session.evaluate", "src/tmlt/analytics/_query_expr_compiler/_base_measurement_visitor.py"]}
{"id": "C60", "title": "What a session says about its tables is always true", "statement": "At any time, for a session and all sessions made from it by partitions: get_schema() and get_column_types() name exactly the columns of the rows that the table has, with the types of their values, and nulls, NaNs and infinities occur only where the schema says so; get_grouping_column() and get_id_column() name columns of the table, never both, and only tables with an ID column have an ID space; describe() lists all private and public tables with the same schemas, and the constraints it lists hold. A call never changes the rows of an existing table, and only create_view() and delete_view() add or remove the table they name, in their session.", "quantifier": "every builder, database, sequence of evaluate, create_view, delete_view, add_public_dataframe, partition_and_create and stop on any of the sessions", "why_tests_cant": "Metadata is kept in domains, metrics and dictionaries apart from the data; drift shows only after particular sequences of views and partitions.", "anchors": ["src/tmlt/analytics/session.py: Session.get_schema, get_column_types, get_grouping_column, get_id_column, get_id_space, describe", "src/tmlt/analytics/session.py: Session.create_view, delete_view, partition_and_create, add_public_dataframe"]}
{"id": "C61", "title": "Without noise, answers are exact", "statement": "evaluate() with an infinite budget (PureDPBudget(inf), RhoZCDPBudget(inf), or ApproxDPBudget with epsilon inf or delta 1) returns the true answer: one row for each key of the KeySet, or for each key that occurs in the data when keys are chosen automatically, with the count, the number of distinct rows, or the sum or average of the values clamped to the bounds, of just those rows of the query's table that have the key; nulls and NaNs are left out, infinities count as the bounds. Medians and other quantiles, variances, standard deviations and bounds are computed from just these values. Nothing depends on the mechanism, on how budgets are split, or on the truncation of rows within the known constraints.", "quantifier": "every session, sequence of calls, query, KeySet, database and infinite budget", "why_tests_cant": "Tests compare single queries on small tables; this is about all compositions of transformations, truncations, special values and shortcuts on all data.", "anchors": ["src/tmlt/analytics/session.py: Session.evaluate, _process_requested_budget", "src/tmlt/analytics/_query_expr_compiler/_base_measurement_visitor.py", "src/tmlt/analytics/_query_expr_compiler/_rewrite_rules.py", "src/tmlt/analytics/privacy_budget.py"]}
{"id": "C62", "title": "A query that type-checks is answered", "statement": "If the schema of a query can be computed (as describe() does), then create_view() accepts the transformation and evaluate() answers the aggregation: the compiled table is exactly the one that the schema calls for, and no internal error is raised. Conditions are those that the documentation states: a budget of the session's kind that covers the query, approximate DP for automatic keys, Gaussian noise only under zCDP, and for tables with an ID column a constraint that bounds what an ID contributes.", "quantifier": "every catalog, query, budget and sequence of earlier calls", "why_tests_cant": "Type checking and compilation are separate traversals of the query that must agree on every composition of transformations; tests check pairs of them.", "anchors": ["src/tmlt/analytics/_query_expr.py", "src/tmlt/analytics/_query_expr_compiler/_base_transformation_visitor.py", "src/tmlt/analytics/_query_expr_compiler/_base_measurement_visitor.py", "src/tmlt/analytics/_query_expr_compiler/_measurement_visitor.py", "src/tmlt/analytics/session.py: Session.evaluate, create_view, describe"]}
{"id": "C63", "title": "Partitions are made exactly when the session's own description allows them", "statement": "partition_and_create on a usable session, with a budget that remains, succeeds if and only if the split names are identifiers, the table is a private table of the session, the column exists and its type is that of the split values, no value is given twice, a table with a grouping column is split by that column, and for a table with an ID column describe() lists a bound on the rows of an ID or on its values in the column. It then returns one session for each split in the order given, the first one active. Each has exactly one private table, named after the split, with the columns, types and nullability of the table that was split, no grouping column, no constraints, and the ID column and ID space of the split table exactly if the values of an ID in the column were bounded; the public tables are those of the session.", "quantifier": "all sessions reached by any sequence of calls from any builder input, all budgets, columns and splits", "why_tests_cant": "Depends on the whole history of a session: views, constraints on views, partitions of partitions.", "anchors": ["src/tmlt/analytics/session.py: Session.partition_and_create, Session._create_partition_transformation, Session._create_partition_constraint"]}
{"id": "C64", "title": "A histogram counts the values in each bin", "statement": "histogram() on a table without grouping column is answered, for any bin edges and names that BinningSpec accepts, if the name of the new column is not taken. With an infinite budget the answer has exactly one row for each bin name, in the order of the bins, whose count is the number of rows of the query's table with a value in a bin of that name: between its edges, on the edges that are included, or NaN for the NaN bin. Nulls and values outside of all bins are not counted.", "quantifier": "all sessions reached by any sequence of calls from any builder input, all tables, columns, edges, names, budgets and data", "why_tests_cant": "Concerns the composition of binning, the row-by-row map, the KeySet made from the bins and the grouped count on all data.", "anchors": ["src/tmlt/analytics/query_builder.py: QueryBuilder.histogram, QueryBuilder.bin_column", "src/tmlt/analytics/binning_spec.py: BinningSpec.__call__, BinningSpec.bins", "src/tmlt/analytics/session.py: Session.evaluate"]}
{"id": "C65", "title": "Views and tables stay apart, whatever is created and deleted", "statement": "private_sources lists exactly the tables the session was made with and the views created since, without those deleted. Every query and every view that names one of them gets that table, with its columns, ID column, ID space, constraints and rows, whether the view was cached or not, in whatever order and of whatever ID space tables and views were made; intermediate results of earlier queries and views are never found under a name and never get in the way. delete_view removes just the table it names, create_view and delete_view fail just when the name is taken or unknown or the query is refused, and a failed call changes nothing. Each session of a partition starts with just its part. Direct joins of a table with itself and the deletion of the last table of an ID space are left aside.", "quantifier": "all builders, all sequences of calls on a session and its partitions, all queries, all ways in which Python numbers temporary objects", "why_tests_cant": "Tables live in nested dictionaries that each step of each query extends with temporary entries; tests see only short sequences of views and a few ID spaces.", "anchors": ["src/tmlt/analytics/_transformation_utils.py", "src/tmlt/analytics/_table_reference.py", "src/tmlt/analytics/_table_identifier.py", "src/tmlt/analytics/_query_expr_compiler/_base_transformation_visitor.py", "src/tmlt/analytics/_query_expr_compiler/_compiler.py: QueryExprCompiler.build_transformation", "src/tmlt/analytics/session.py: Session.private_sources, _catalog, create_view, delete_view, partition_and_create"]}
{"id": "C66", "title": "A KeySet expression decides which rows an answer has", "statement": "For any expression made of KeySet.from_dict, from_tuples, from_dataframe, *, -, [], join, filter and union: an aggregation grouped by it has exactly one row for each combination of values that the expression stands for according to the documentation of the operators, and no other rows, whatever the data, the budget and the session; with an infinite budget each row has the aggregate of just those rows of the query's table that have these values.", "quantifier": "all KeySet expressions of any size, all sessions reached by any sequence of calls, all queries, budgets and data", "why_tests_cant": "Tests group by a few small KeySets; the rewriting of operation trees, the data frame, the schema and the aggregation meet only in whole queries.", "anchors": ["src/tmlt/analytics/keyset/_keyset.py: KeySet", "src/tmlt/analytics/keyset/_ops", "src/tmlt/analytics/_query_expr_compiler/_base_measurement_visitor.py", "src/tmlt/analytics/session.py: Session.evaluate"]}
{"id": "C67", "title": "A query is charged the budget its answer uses", "statement": "evaluate() takes from the session exactly the budget that is requested, and the mechanism behind the answer is built for exactly that budget: nothing is charged that the answer does not make use of. In particular, where delta is documented to be replaced with zero, no delta is taken from the session.", "quantifier": "all sessions reached by any sequence of calls, all queries and finite budgets", "why_tests_cant": "Tests compare remaining budgets and look at the noise of single queries; that the two agree is about all paths by which a query adjusts its budget.", "anchors": ["src/tmlt/analytics/session.py: Session.evaluate", "src/tmlt/analytics/_query_expr_compiler/_base_measurement_visitor.py: BaseMeasurementVisitor._validate_approxDP_and_adjust_budget", "src/tmlt/analytics/privacy_budget.py"]}
{"id": "C68", "title": "Only answers depend on private rows", "statement": "Two programs that differ only in the rows of their private data frames (any number of rows, same columns) see the same exceptions and results from every method of the session builder, and sessions with the same budget, tables, schemas, ID columns, protected changes and public tables. Whatever the sessions are asked afterwards, the outcomes, exceptions, schemas and remaining budgets carry nothing about the rows: if the answers did not depend on them, both programs would see the same.", "quantifier": "all pairs of programs, all rows, all adaptive sequences of calls", "why_tests_cant": "Is a statement about pairs of runs; a test would have to compare runs for all pairs of databases.", "anchors": ["src/tmlt/analytics/_base_builder.py", "src/tmlt/analytics/session.py: Session.Builder, Session", "src/tmlt/analytics/_neighboring_relation.py", "src/tmlt/analytics/_neighboring_relation_visitor.py", "src/tmlt/analytics/_coerce_spark_schema.py"]}
{"id": "C69", "title": "Plans with detected keys mean what KeySets mean", "statement": "An expression may combine KeySets with keys that are still to be detected, by *, -, [], join, filter and union. Whatever will be detected, the plan has the columns and stands for the keys that the documentation of the operators says. Where the columns that are left do not need detected keys, the result is a KeySet, whose data frame has exactly these keys; otherwise it is a plan.", "quantifier": "all expressions of any size, all detected keys, all data", "why_tests_cant": "The keys are not known when the expression is rewritten; a test can only try some.", "anchors": ["src/tmlt/analytics/keyset/_keyset.py: KeySet._detect, KeySetPlan", "src/tmlt/analytics/keyset/_ops"]}
{"id": "C70", "title": "Session.from_dataframe makes the session it describes", "statement": "Session.from_dataframe succeeds exactly if the name of the table is an identifier, every column has a name and a supported type, and the protected change suits the data frame: a grouping or ID column exists and holds integers, strings or dates, and the ID space is an identifier. The session has the budget given, no public tables, and a single private table of the given name, with the rows and columns of the data frame, the columns nullable that are there, no constraints, and the protected change.", "quantifier": "all data frames with distinct column names, names, budgets and protected changes", "why_tests_cant": "Ranges over all schemas and protected changes; the checks are spread over the builder, the coercion of schemas and the neighboring relation.", "anchors": ["src/tmlt/analytics/session.py: Session.from_dataframe", "src/tmlt/analytics/_base_builder.py", "src/tmlt/analytics/protected_change.py", "src/tmlt/analytics/_coerce_spark_schema.py"]}
{"id": "C71", "title": "Aggregation methods compute what they are documented to", "statement": "Each aggregation method of QueryBuilder and, after groupby, of GroupedQueryBuilder accepts exactly the documented arguments: a mechanism that is a member of its enumeration or, in any case of letters, the name of one; low less than high; a quantile from 0 to 1; columns to group by only if automatic partition selection is enabled. The query uses the mechanism asked for. Evaluated with an infinite budget, the answer has the documented columns (the name given or the default name) and values: the count, the count of distinct rows or of values of the given columns, the quantile, sum, average, variance or standard deviation of the values within the bounds, with nulls, NaNs and infinities treated as the method says; in one row without groupby, otherwise in one row for each key.", "quantifier": "all methods, arguments, tables, transformations and sessions", "why_tests_cant": "Two classes with eleven methods each and optional arguments, over all tables; the tests check single values.", "anchors": ["src/tmlt/analytics/query_builder.py: QueryBuilder.groupby, QueryBuilder.count, QueryBuilder.quantile, GroupedQueryBuilder", "src/tmlt/analytics/_query_expr.py: GroupByCount, GroupByCountDistinct, GroupByQuantile, GroupByBoundedSum, GetBounds", "src/tmlt/analytics/_query_expr_compiler/_rewrite_rules.py"]}
{"id": "C72", "title": "Chains of transformation methods compute what they are documented to", "statement": "A chain of calls of rename, filter, select, map, flat_map, flat_map_by_id, bin_column, join_public, join_private, replace_null_and_nan, replace_infinity, drop_null_and_nan, drop_infinity and enforce is accepted exactly if every call has documented arguments, and otherwise raises a ValueError or TypeError. The columns of its result, with their order and types, are the ones the documentation of each method says. An aggregation of it, evaluated with an infinite budget, answers as documented for a table that the documentation of the calls allows for the tables of the session.", "quantifier": "all chains of any length, all arguments, all tables and sessions", "why_tests_cant": "Tests call each method a few times on small tables, and mostly one at a time; the claim is about all sequences of calls, from the arguments to the answer.", "anchors": ["src/tmlt/analytics/query_builder.py: QueryBuilder.rename, QueryBuilder.filter, QueryBuilder.map, QueryBuilder.flat_map, QueryBuilder.join_public, QueryBuilder.join_private, QueryBuilder.bin_column, QueryBuilder.replace_infinity", "src/tmlt/analytics/_query_expr.py", "src/tmlt/analytics/_query_expr_compiler/_base_transformation_visitor.py"]}
{"id": "C73", "title": "suppress and get_groups do what they are documented to", "statement": "Only counts after groupby can be suppressed. Evaluating a suppressed count fails exactly if evaluating the count fails, costs the same and leaves the session in the same state; its answers are the answers of the count without the rows whose count is less than the threshold, with the same probabilities. An answer to get_groups has each combination of the listed columns at most once, and only combinations that some row of the table has; with an infinite budget it has all of them. If no columns are listed, all columns but the ID column are meant.", "quantifier": "all sessions, chains of transformations, budgets, thresholds and columns", "why_tests_cant": "Answers are random and depend on all of the data; the claim relates two evaluations of the same session.", "anchors": ["src/tmlt/analytics/query_builder.py: QueryBuilder.get_groups, GroupbyCountQuery.suppress", "src/tmlt/analytics/_query_expr.py: SuppressAggregates, GetGroups", "src/tmlt/analytics/_query_expr_compiler/_measurement_visitor.py"]}
{"id": "C74", "title": "Queries of a program mean the calls that were made", "statement": "A program makes builders, copies them, calls their methods in any order, joins one builder with another, groups and aggregates them, and changes the lists and dictionaries that it has passed. A call is refused exactly if its arguments at the time of the call are not as documented, and a refused call changes nothing. Each builder stands for the calls that were made on it and, before it was copied, on the builder it is a copy of, with the arguments as they were then; calls on other builders, later calls and later changes of arguments have no effect. A query object answers as documented for the calls that were made on its builder before it was made, whenever and in whichever session it is evaluated.", "quantifier": "all programs of any length, all arguments, tables and sessions", "why_tests_cant": "Sharing goes wrong only for some interleavings of calls; tests use a builder once.", "anchors": ["src/tmlt/analytics/query_builder.py: QueryBuilder, GroupedQueryBuilder, Query", "src/tmlt/analytics/_query_expr.py", "src/tmlt/analytics/_schema.py: FrozenDict"]}
{"id": "C75", "title": "Binning specifications and histograms, from their arguments", "statement": "A BinningSpec can be made exactly from two or more edges of one supported type, each below the next, and names that are one for each bin and of one supported type (the name for NaNs too); or without names, if float edges differ when rounded to 2 to 16 decimals; otherwise it raises ValueError, or RuntimeError for float edges without names. A value is given the name of the bin between whose edges it lies, with the edges that the arguments say are included, NaN the name for NaNs, and all others null. Default names are distinct and show the two edges, with a square bracket exactly at an edge that belongs to the bin. histogram accepts edges exactly if a BinningSpec can be made from them, and a BinningSpec exactly if its names are integers, strings or dates; evaluated with an infinite budget it has one row for each name, with the number of rows of the table whose value belongs to the bin.", "quantifier": "all edges of all types, all names, flags and values; all chains of transformations, tables and sessions", "why_tests_cant": "Edges, names and values are unbounded; tests try single lists of edges, and mostly integers.", "anchors": ["src/tmlt/analytics/binning_spec.py: BinningSpec, _default_bin_names, _edges_as_str, _get_column_descriptor", "src/tmlt/analytics/query_builder.py: QueryBuilder.histogram, QueryBuilder.bin_column"]}
{"id": "C76", "title": "Which calls a session's tables allow", "statement": "Calls on builders whose arguments are accepted are checked again when a query is evaluated or a view created, against the tables of the session. They pass exactly if: the tables named exist and are private (or, for join_public, public); columns named exist; new columns have new names; the ID column and the grouping column are not dropped, replaced or overwritten; joined tables have the join columns with the same types, the same ID column and ID space, no different grouping columns and no two columns that would get one name; replacement values have the type of their column; flat_map_by_id and enforce are used on tables with IDs; there is at most one grouping flat map, and only without IDs. Otherwise evaluate and create_view fail with a ValueError or KeyError, and nothing is answered or added.", "quantifier": "all chains of any length, all arguments, tables and sessions", "why_tests_cant": "The checks depend on the columns that each prefix of the chain leaves, in any combination; tests check single calls on a few tables.", "anchors": ["src/tmlt/analytics/_query_expr.py: RenameColumns.schema, Select.schema, Map.schema, FlatMap.schema, JoinPrivate.schema, JoinPublic.schema, ReplaceNullAndNan.schema, _validate_join, _schema_for_join", "src/tmlt/analytics/_schema.py: Schema", "src/tmlt/analytics/session.py: Session.evaluate, Session.create_view"]}
{"id": "C77", "title": "describe tells the truth about tables, builders and queries", "statement": "Two tables are described alike exactly if they have the same columns in the same order, with the same types and nullability, the same float columns with NaNs and with infinities, the same ID column with its ID space and the same grouping column. describe(name) says of a private table what describe() says of it. describe(builder) says, with the constraints, what describe(name) says of the view that create_view(builder, name) makes, and fails with the same exception if create_view fails. If evaluate answers a query then describe of it succeeds, and every answer is a table of the schema shown. Of a builder grouped by columns it shows these columns; of one grouped by a KeySet the columns of the KeySet and the number of rows of the answers.", "quantifier": "all sessions after any calls, all builders, queries, KeySets, names and answers", "why_tests_cant": "The description is computed from the schema alone, the view and the answers by the compiler and Spark from the data; tests compare printed texts of a few tables.", "anchors": ["src/tmlt/analytics/session.py: Session.describe, _describe_query_obj, _describe_schema, create_view, evaluate"]}
{"id": "C78", "title": "Results derived from answers are as private as the answers", "statement": "Whatever is computed from everything that a session returned and raised, in any way and with any further randomness, is as close for neighbouring tables as the total budget of the session promises.", "quantifier": "all protected changes, all neighbouring tables, all analysts who choose each call with all answers so far, any number of calls, all functions of the answers", "why_tests_cant": "It is a statement about probability distributions over all outcomes of all programs that use the answers; no test can enumerate them.", "anchors": ["src/tmlt/analytics/session.py: Session, Session.evaluate, Session.create_view, Session.partition_and_create", "src/tmlt/analytics/privacy_budget.py: PureDPBudget, ApproxDPBudget, RhoZCDPBudget"]}
{"id": "C79", "title": "Tables that are several protected changes apart", "statement": "For tables that are k protected changes apart, everything that is learned from a session is as close as k epsilon promises with PureDPBudget(epsilon); as k epsilon and delta (1 + exp(epsilon) + ... + exp((k-1) epsilon)) promise with ApproxDPBudget(epsilon, delta); as k squared rho promises with RhoZCDPBudget(rho). In particular this holds for tables that differ by at most k n rows if AddMaxRows(n) is protected, and for tables that differ in the rows of j IDs if AddRowsWithID is protected, where k = 2 j: replacing the rows of one ID by others is two changes.", "quantifier": "all protected changes, all tables and chains of neighbouring tables between them, all analysts, any number of calls, all budgets", "why_tests_cant": "It is a statement about distributions for all pairs of tables at all distances; tests see a few tables and samples.", "anchors": ["src/tmlt/analytics/protected_change.py: AddMaxRows, AddRowsWithID, AddMaxRowsInMaxGroups", "src/tmlt/analytics/session.py: Session, Session.Builder", "src/tmlt/analytics/privacy_budget.py: PureDPBudget, ApproxDPBudget, RhoZCDPBudget"]}
{"id": "C80", "title": "Equivalent ways to write a transformation give the same answers", "statement": "Two filters may be exchanged or combined into one; a filter may be put before or after a select that keeps the columns it reads, drop_null_and_nan, drop_infinity, or a map or flat_map that keeps the old columns and makes only columns it does not read; a select may be left out before a select of some of its columns. If this is done anywhere in the transformations of a query, in joined tables too and any number of times, evaluate raises the same exception or charges the same, leaves the session in the same state and answers with the same probabilities; create_view makes the same view. (A filter may not be exchanged with enforce: the row that is kept for an ID may be one that the filter drops.)", "quantifier": "all chains of transformations, aggregations, budgets, tables and sessions", "why_tests_cant": "It compares answers of two different programs, whose noise differs each time; the rewriting may be at any depth.", "anchors": ["src/tmlt/analytics/_query_expr_compiler/_base_transformation_visitor.py: visit_filter, visit_select, visit_drop_null_and_nan, visit_drop_infinity, visit_map, visit_flat_map", "src/tmlt/analytics/_query_expr_compiler/_constraint_propagation.py: propagate_select", "src/tmlt/analytics/_query_expr.py", "src/tmlt/analytics/session.py: Session.evaluate, Session.create_view"]}
{"id": "C81", "title": "Budgets of several sessions add up", "statement": "An analyst works with several sessions, on the same or different tables with a person's data, calling them in any order and choosing each call with all answers of all sessions. What they learn from all of them together is as close for neighbouring tables as the sum of the budgets promises: e to the sum of the epsilons, the sum of the deltas, the sum of the rhos. If sessions are opened on the way, on tables and with budgets chosen with all answers so far, the total that all their budgets stay within is promised.", "quantifier": "any number of sessions, opened beforehand or on the way, all finite budgets of one kind (or pure and approximate ones together, with an approximate promise), all protected changes and neighbouring tables, all interleavings of calls of any length, all analysts", "why_tests_cant": "It is a statement about distributions over all interleaved runs.", "anchors": ["src/tmlt/analytics/session.py: Session.evaluate, Session.partition_and_create, Session.create_view, _process_requested_budget", "src/tmlt/analytics/privacy_budget.py"]}
{"id": "C82", "title": "Tables that are not named stay unknown", "statement": "Whoever never names a private table of a session, in queries, joins, views or partitions, learns nothing at all about its rows, in this session and in the sessions of partitions: whatever they are, everything that is returned or raised has the same probability. This holds for every budget, also an infinite one. If at the same time the named tables change as the session protects, what is learned is as close as the budget promises.", "quantifier": "all sessions with any number of private tables, all sets of names, all rows of the tables with these names, all analysts who do not name them, any number of calls, all budgets", "why_tests_cant": "It says of all programs that a piece of data has no influence at all; a test can only vary it a few times, and the answers are random.", "anchors": ["src/tmlt/analytics/session.py: Session.evaluate, Session.create_view, Session.partition_and_create", "src/tmlt/analytics/_query_expr_compiler/_compiler.py: QueryExprCompiler.__call__", "src/tmlt/analytics/_query_expr_compiler/_base_transformation_visitor.py: visit_private_source"]}
{"id": "C83", "title": "A request that is refused for lack of budget names what is lacking", "statement": "If evaluate or partition_and_create is refused because the budget does not suffice, a RuntimeError is raised, whose message gives what was requested, what remains, and the difference, for exactly the components of the budget (epsilon, delta, rho) of which more was requested than remains. The differences are right up to rounding to three decimal places and the precision of floats.", "quantifier": "all sessions, remaining budgets and finite requests of all kinds the session accepts, also those that differ in one component only or by very little", "why_tests_cant": "The components that lack are found by comparing rounded floats, after the accountant compared exact numbers with a tolerance; whether both agree is a question about all pairs of numbers.", "anchors": ["src/tmlt/analytics/session.py: _format_insufficient_budget_msg, Session.evaluate, Session.partition_and_create, Session._process_requested_budget"]}
{"id": "C84", "title": "The order of rows does not matter", "statement": "A session on tables with the same rows in another order is the same session: everything that is returned or raised has the same probability, for every program. In particular which rows of an ID, group or key are kept by enforce and by joins, and which part of a partition a row is in, does not depend on the order of the rows.", "quantifier": "all sessions, all orders of the rows of all private tables, all analysts, any number of calls, all budgets, also infinite ones", "why_tests_cant": "The rows that are kept where some have to be dropped are chosen by hashes and sorting; a test sees a few orders, and Spark may give any.", "anchors": ["src/tmlt/analytics/session.py: Session.evaluate, Session.create_view, Session.partition_and_create", "src/tmlt/analytics/_query_expr_compiler/_base_transformation_visitor.py: visit_enforce_constraint, visit_join_private", "src/tmlt/analytics/constraints/_truncation.py"]}
{"id": "C85", "title": "Noise can be known beforehand, and the rows of a KeySet do not change it", "statement": "Asking a session for the noise of a query costs nothing and changes nothing. If evaluate then answers, the answer has the noise that was told; if the noise is not told because of an exception, evaluate raises the same one. If it is told, evaluate fails only because the session is not active or the budget does not suffice. A query with a KeySet that has the same columns but other rows is accepted alike, costs the same, leaves all sessions in the same state, and has the same noise. Spending the budget of a query without executing it costs what evaluate costs, and is refused exactly if evaluate is.", "quantifier": "all sessions after any calls, all queries, budgets and rows of KeySets", "why_tests_cant": "The noise is found by building the aggregation for a sample of one key of its own, under the assumption that this has the same privacy analysis as for the keys that are used; tests compare a few KeySets.", "anchors": ["src/tmlt/analytics/session.py: Session._noise_info, Session._spend_budget_without_executing, Session._compile_and_get_info, Session.evaluate", "src/tmlt/analytics/_query_expr_compiler/_base_measurement_visitor.py: _build_adaptive_groupby_agg_and_noise_info"]}
{"id": "C86", "title": "check_installation succeeds exactly if the library answers as it should", "statement": "In a correct installation check_installation() never fails, whatever the noise: the session is made, the query is answered, and every table that may be returned passes the checks. The checks pass exactly for tables with the columns A and count and one row for each of the three keys; for every other table RuntimeError is raised. If the table has no rows, the error says that Spark may not be configured properly.", "quantifier": "all noise, hashes and roundings; all tables that a query may return", "why_tests_cant": "The table that is checked has noise, and a test runs in a correct installation only.", "anchors": ["src/tmlt/analytics/utils.py: check_installation", "src/tmlt/analytics/session.py: Session.from_dataframe, Session.evaluate", "src/tmlt/analytics/keyset/_keyset.py: KeySet.from_dict"]}
{"id": "C87", "title": "The amount of a budget decides about noise only", "statement": "Whether a query is accepted does not depend on how much of a budget is given for it. If evaluate answers with one budget, then with every other budget of the same kind that is zero in the same components and infinite alike it answers or refuses for lack of budget; the table that is measured, the mechanism, the keys, the sensitivity and what is done with the answer are the same, only the budgets of the measurement differ. With a smaller budget it always answers. If compilation raises an exception with one of these budgets it raises the same with all.", "quantifier": "all sessions after any calls, all queries, all pairs of budgets of one kind that are zero in the same components and both finite or both infinite", "why_tests_cant": "The budget is passed through every step of the compilation, is split between keys and aggregation, and decides about some refusals; a test tries a few amounts.", "anchors": ["src/tmlt/analytics/session.py: Session.evaluate, Session._compile_and_get_info, Session._process_requested_budget", "src/tmlt/analytics/_query_expr_compiler/_base_measurement_visitor.py: _validate_approxDP_and_adjust_budget, _split_auto_partition_budget"]}
{"id": "C88", "title": "A view is an abbreviation", "statement": "After create_view has made a view of an expression, every query about the view is answered like the query in which the expression is written in place of the view's name: by the same measurement of the same rows, for the same cost, with the same noise, and it raises an exception exactly if that one does, the same one. Views may be used any number of times in a query, in joins and below any transformation.", "quantifier": "all sessions after any calls, all expressions create_view accepts, all queries and budgets", "why_tests_cant": "Views are transformed once, with domain, metric, constraints and sensitivity stored, and are typed from what is stored; queries written out are typed and compiled as a whole. That both agree is a statement about all pairs of expressions.", "anchors": ["src/tmlt/analytics/session.py: Session.create_view, Session.evaluate, Session._catalog", "src/tmlt/analytics/_query_expr_compiler/_base_transformation_visitor.py: visit_private_source, inner_metric", "src/tmlt/analytics/_query_expr_compiler/_compiler.py: build_transformation"]}
{"id": "C89", "title": "Only the tables that a query names matter", "statement": "What a query returns or raises, what it costs and its noise depend on the tables and public tables that the query names, and on the budget that is left, and on nothing else of the session. In particular, creating or deleting any other view and adding any other public table, whether this succeeds or not, has no effect on it; and two sessions that were made from other tables and had other calls answer it alike, if they agree about the named tables. Views and partitions depend only on the tables they are made of.", "quantifier": "all pairs of sessions after any calls, all queries, budgets and names", "why_tests_cant": "All tables of a session are kept in one catalog and one tuple of data frames and are compiled against it; tests can add a few tables to a few sessions, not show that no other table ever plays a role.", "anchors": ["src/tmlt/analytics/session.py: Session._catalog, Session.evaluate, Session.create_view, Session.delete_view, Session.add_public_dataframe", "src/tmlt/analytics/_catalog.py: Catalog", "src/tmlt/analytics/_query_expr_compiler/_compiler.py: QueryExprCompiler.__call__"]}
{"id": "C90", "title": "Views and public tables can be set up in any order", "statement": "Calls of create_view, delete_view and add_public_dataframe in one session that have different names, and of which no view uses a name of another of the calls, can be made in any order. Each call has the same outcome in both orders of two calls, and after all of them every query returns or raises the same, costs the same, and has the same noise. Such a call can also be moved before or behind any number of queries that do not mention its name.", "quantifier": "all sessions after any calls, all lists of such calls and all permutations of them, all queries and budgets", "why_tests_cant": "The tables are kept in lists and tuples in the order of the calls, and views are compositions of transformations of the whole tuple; a test tries a few orders of a few calls.", "anchors": ["src/tmlt/analytics/session.py: Session.create_view, Session.delete_view, Session.add_public_dataframe, Session._catalog, Session.evaluate"]}
{"id": "C91", "title": "A view that is not used leaves no trace", "statement": "Creating or deleting a view, or adding a public table, whether it succeeds or not, does not change what later calls in the same session return or raise, as long as they do not mention its name: all outcomes of any sequence of evaluate, create_view, delete_view and add_public_dataframe are the same. A view that has been created can be deleted after any such calls, and then every query, also one that mentions the name, returns or raises the same, costs the same, and has the same noise as if the view had never been; a view or public table that is made under the same name afterwards is what it would have been.", "quantifier": "all sessions after any calls, all views, all sequences of calls that do not mention the name, all queries and budgets", "why_tests_cant": "A view adds to the session's transformation and state, and this must stay invisible through arbitrarily long programs; tests run short ones.", "anchors": ["src/tmlt/analytics/session.py: Session.create_view, Session.delete_view, Session.add_public_dataframe, Session.evaluate, Session._catalog"]}
{"id": "C92", "title": "Tables and views can be renamed", "statement": "If a view is made that is just another table or view, and that one is then deleted, any sequence of queries with the new name has the outcomes that it would have had with the old name before: the same answers, costs, and exceptions, one after the other.", "quantifier": "all sessions after any calls, all tables and views, all sequences of queries that do not mention the old name, all budgets", "why_tests_cant": "A view of a table is a transformation with a domain, metric, constraints and distance of its own, and not the table; that it can take its place in all queries is a statement about all of them.", "anchors": ["src/tmlt/analytics/session.py: Session.create_view, Session.delete_view, Session.evaluate", "src/tmlt/analytics/_query_expr_compiler/_base_transformation_visitor.py: visit_private_source"]}
{"id": "C93", "title": "Sessions of a partition do not interfere", "statement": "Whatever is called on other sessions of a partition tree - queries, views, deletions, partitions, stop - does not change what a session answers, what it costs and its noise, nor which exception is raised, unless the session was stopped by it. Public tables that are added to other sessions have no effect on queries that do not name them.", "quantifier": "all sessions after any calls, all sequences of calls on other sessions, all queries and budgets", "why_tests_cant": "The sessions share one tree of accountants, one dict of public tables and the data; a test tries a few interleavings of calls.", "anchors": ["src/tmlt/analytics/session.py: Session.partition_and_create, Session.evaluate, Session.create_view, Session.delete_view, Session.add_public_dataframe, Session.stop"]}
{"id": "C94", "title": "Queries that can all be paid for may be asked in any order", "statement": "If the budgets of some queries, written as floats, do not exceed together what is left in a session, each of them returns or raises what it would if it were asked first, at the cost that was given for it. So the queries may be asked in any order, and a query that fails has no effect on the others. With an infinite budget this holds for all queries.", "quantifier": "all sessions, all lists of queries and budgets of the session's kind that are not negative, all permutations", "why_tests_cant": "What is left after a query is subtracted exactly, rounded to a float and compared with a tolerance; for which sequences of budgets none of this matters is not seen in examples.", "anchors": ["src/tmlt/analytics/session.py: Session.evaluate, Session._process_requested_budget, Session._compile_and_get_info", "src/tmlt/analytics/privacy_budget.py: _get_adjusted_budget"]}
