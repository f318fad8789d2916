# Formal model of tumult-analytics in Lean 4

`properties.jsonl` has the claims, `MANIFEST.json` says which theorems prove which claim, `lean/Verif/` has the model
and the proofs, `seeded/LOG.jsonl` has the wrong programs that the theorems were tried on.

## 1. What is trusted

* Lean's kernel (4.33.0) and the axioms `propext`, `Classical.choice` and `Quot.sound`. No theorem depends on any other
  axiom; section 6 has the axioms of each theorem of the manifest. There is no `sorry`, `native_decide` or `bv_decide`.
* The reading of the Python source. The code is not run. Every definition cites the file and lines that it models.
* The contracts of section 3: what is outside /repo (`tmlt.core`, Spark, pandas, Python itself) is modelled as its
  documentation describes it, or as the code in /repo relies on it.

Conventions: an exception is a value (`Except Err α`); a `dict` is an association list without repeated keys, in
insertion order; an object that is mutated and shared (sessions, the dictionary of public tables, query builders, the
lists passed to them) lives in a heap and is referred to by an address; a data frame is a list of rows, and statements
about data frames are about membership or up to permutation; a float is a rational number, or an infinity or NaN where
these matter, and rounding is an explicit function where it matters (budgets).

## 2. Which code is modelled

Paths are relative to `/repo/src/tmlt/analytics`.

| code | model | properties |
|---|---|---|
| `privacy_budget.py` (all classes, `_get_adjusted_budget`) | `Budget/Model` | C04 C09 C10 |
| `session.py`: `evaluate`, `create_view`, `delete_view`, `add_public_dataframe`, `partition_and_create`, `stop`, `_process_requested_budget`, `_activate_accountant`, `_validate_budget_type_matches_session`, `_compile_and_get_info`, `private_sources`, `public_sources`, `remaining_privacy_budget` | `Session/Model` | C01 C02 C03 C05 C06 C07 C08 C11 C36 C47 |
| `binning_spec.py` | `Binning/Model`, `Bins/Model` | C12 C13 C51 C75 |
| `constraints/*.py`; choice of truncation and count-distinct shortcut in `_base_measurement_visitor.py` l. 156-300, 534-589 | `Constraint/Model` | C14 C15 C17 C18 C49 |
| `_schema.py`, `_coerce_spark_schema.py` | `Schema/Model` | C38 C39 C40 |
| `_query_expr.py` l. 175-1490 (transformations: validation and schemas), `_base_transformation_visitor.py`, `_constraint_propagation.py` | `Expr/Model` | C16 C19 C20 C21 C41 C57 C62 |
| `_query_expr.py` l. 1493-2071 (aggregations), `_rewrite_rules.py`, `_compiler.py`, `_base_measurement_visitor.py`, `_measurement_visitor.py` | `Query/Model` | C27 C28 C29 C30 C31 C32 C59 C62 |
| `config.py` (feature flags), `_utils.py` (`validate_collection`), `_noise_info.py` | `Misc/*` | C42 C43 C44 |
| `_table_reference.py`, `_table_identifier.py` | `Relation/Ref` | C35 |
| `protected_change.py`, `_neighboring_relation.py`, `_neighboring_relation_visitor.py`, `_base_builder.py`, `session.py` l. 113-143, 251-295, 403-474 | `Relation/Model`, `Relation/Builder` | C33 C34 C37 |
| `session.py` l. 334-401 (`from_dataframe`) | `Whole/FromFrame` | C70 |
| `keyset/_ops/*.py` (operations, validation, rewriting, schemas, data frames, sizes, decomposition), `keyset/_keyset.py` (`KeySet`, `KeySetPlan`) | `KeySet/Model`, `KeySet/Class` | C22 C23 C24 C25 C26 C52 C66 C69 |
| `_query_expr.py` (dataclass and explicit `__eq__`), `query_builder.py` l. 92-149 | `Builder/Expr` | C46 C53 |
| `query_builder.py` l. 1788-3804 (`groupby`, aggregation methods; `OverflowError` of `float` and members of the wrong enumeration are left out) | `Whole/Methods` | C71 |
| `query_builder.py` l. 283-1719 (transformation methods, from their arguments) | `Whole/Chain` | C72 C76 |
| `query_builder.py` l. 157-234, 1722-1786 (`suppress`, `get_groups`) | `Whole/Finish` | C73 |
| `query_builder.py` l. 229-3804 (builders as mutable objects) | `Builder/Heap` | C45 C74 |
| stability of compiled transformations (`_base_transformation_visitor.py`, `truncation_strategy.py`) | `Stability/*` | C48 C54 |
| `session.py` with data and randomised answers | `Composition/Model` | C50 |
| all of the above for one session: catalog made from the session's tables, compiled measurements and their sensitivity, views, partitions, construction from data frames | `Whole/Model`, `Whole/Start` | C05 C06 C30 C55 C56 C58 C61 C62 C63 C64 C66 C67 C68 C78 C79 C80 C81 C82 C84 |
| `_transformation_utils.py`, the dictionaries around tables in `_base_transformation_visitor.py`, `create_view`, `delete_view`, `partition_and_create` of `session.py` | `Nested/Model`, `Nested/Mid`, `Nested/Start`, `Nested/History` | C65 |
| `session.py` l. 640-700, 777-892 (`describe`, `get_schema` and the other getters) | `Whole/Reports` | C60 |
| `session.py` l. 146-238 (`_format_insufficient_budget_msg`: what is shown and in which format, not the digits) | `Session/Refusal` | C83 |
| `session.py` l. 737-775, 1001-1048 (`_spend_budget_without_executing`, `_noise_info`); the sample KeySet of `_base_measurement_visitor.py` l. 492-510 | `Session/NoiseInfo`, `Whole/OtherKeys` | C85 |
| `utils.py` l. 91-171 (`check_installation`) | `Whole/Installation` | C86 |
| Views written out in queries (no new code) | `Expr/Alike`, `Expr/Inline`, `Query/Inline`, `Whole/Inline` | C88 |
| Queries and the tables they name (no new code) | `Expr/Named`, `Query/Named`, `Whole/Named` | C89 |
| Order of views, deletions and public tables (no new code) | `Whole/Commute` | C90 |
| Views that are not used (no new code) | `Whole/Traceless` | C91 |
| Sequences of queries about views, renaming (no new code) | `Whole/Renamed` | C88, C92 |
| Calls on other sessions of a tree (no new code) | `Whole/Others` | C93 |
| Order of queries (no new code) | `Whole/AnyOrder` | C94 |
| Independence of the amount of a budget (no new code) | `Query/OtherBudget`, `Session/OtherBudget`, `Whole/OtherBudget` | C87 |
| `session.py` l. 540-638, 702-742, 1754-1815 (`describe` of tables, builders and queries; the cells of the table that is printed) | `Whole/Describe` | C77 |

Not modelled:

* `session.py`: the layout of what `describe` prints and the text of constraints.
* `utils.py` l. 28-35 (removal of temporary tables), and the parts of `check_installation` about Spark, pandas and Java, `config.Config` other than its flags, `_type_checking.py`.
* Caching of tables (`persist_table` and `unpersist_table` are modelled as copies), `KeySet.cache`/`uncache`, partition counts of data frames.
* Messages of exceptions, logging, warnings, documentation strings, `__repr__` and `__str__`.
* Run-time type checks (`@typechecked`, `check_type`): arguments have the declared types.
* Random number generation and the numeric accuracy of core's noise mechanisms.

## 3. Contracts of what is outside /repo

* **Core's privacy accountant** (`Session/Model`): the life cycle of accountants, exact subtraction, `split`, `retire`,
  `force_activate`, as described at the top of the file.
* **Floats** (`Budget/Model`, `Rounding.Lawful`): rounding to nearest is monotone and keeps 0
  and 1; `to_float(round_up=False)` is monotone, never rounds up and keeps numbers non-negative.
* **Core's transformations** (`Expr/Model`, `Constraint/Model`): each is the function on rows, the domain and the metric
  that its documentation gives. Where core refuses an input the definition says "assumed". Limits on rows and groups keep
  the first ones in the order of a hash, and the hash is a parameter (`Hash`); `GroupingFlatMap` drops repeated groups.
* **Core's metrics and stability functions** (`Relation/Distance`, `Stability/Dist`, `Stability/Truncate`): symmetric
  difference, sums and root-sums of squares over groups, `AddRemoveKeys`. That the stability functions are bounds is
  proved (C48), not assumed; which one core uses is assumed.
* **Core's measurements** (`Query/Model`): a measurement constructed for a budget has that privacy function. For C50
  (`Composition.Sound`): a measurement whose privacy relation holds for a budget is private for that budget on tables at
  the distance in question, and proportionally for a share s ≤ 1 of it; the shares of the parts of a partition add up to
  at most the whole; views and parts behave as their metadata says; whether a call is refused does not depend on private
  data; answers are discrete distributions (`PMF`). C55 proves all of this for the library but for the following.
* **Core, for C55 and C56** (`Whole/Model`): `Core.Private`: a measurement that is built for a budget and a distance
  answers privately for that budget on tables at that distance, and proportionally for a share s ≤ 1 of it (for zCDP the
  budget grows with the square of the distance). The distance is the number of rows, or with `use_l2` the root of the sum of
  squares over the groups. It is only assumed of the calls that the library makes (`CallOK`). `GroupBy` refuses a
  `RootSumOfSquared` metric without `use_l2`; `UnwrapIfGroupedBy` squares such a distance; `PartitionByKeys` refuses
  repeated values, and grouped tables unless they are split by their grouping column. `Whole/Noise` has noise that meets the
  contract. Frames of private tables hold values of the types of their columns (`FramesOK`).
* **ID columns** (`Cat.IdsNotFloat`): ID columns of private tables are not floating point columns.
* **User functions** (`Expr.FnsOK`): functions passed to `map`, `flat_map`, `flat_map_by_id` return rows with the declared
  columns and types; the code does not check this before core does. For C54, functions given to `flat_map_by_id` do
  not depend on the order of rows.
* **Spark** (`KeySet/Class`, `KeySet/Spec`, `Schema/Model`): relational operators on rows without order; SQL conditions
  look at one row; `sameSemantics` never says yes of plans with different rows (`SameOK`); casts of `int` to `long` and
  `float` to `double` keep values. Column names are compared exactly, as Python does.
* **pandas** (`Builder/Expr`): what a data frame shows through `toPandas` (integer columns with nulls become floats).
* **Core without noise** (`Whole/Exact`, `NoNoise`): with an infinite budget core's sums, averages and counts are exact,
  other statistics are functions of the clamped values; partition selection with δ = 1 returns all keys, also for
  `get_groups` (`AllGroups`). `OneRowPerKey` (`Whole/Grouped`): whatever the budget and the data, an aggregation grouped
  by a KeySet returns one row for each row of the KeySet's data frame. `CountsByKey` (`Whole/Installation`) is the
  same for counts, which are integers. `WholeCounts` (`Whole/Finish`): counts are integers,
  whatever the budget. `SomeGroups`: whatever the budget, selected keys are distinct and occur in the data.
* **Text** (`Bins/Model`, `Format`): `repr` of a string determines it and shows where it ends; `str` of dates and `isoformat`
  of timestamps have no comma and determine the date, and the timestamp up to the unit. Integers and floats are written out.
* **Python**: insertion-ordered dictionaries, dataclass equality and hashing, `bisect`, byte code equality. A hash
  function is a parameter, and nothing is assumed of it except where a theorem says so.

## 4. How each property is proved

* C01, C02, C05, C06, C07, C08, C36, C47: `Session.step` is a total function on worlds (sessions, accountants, public
  dictionaries); invariants by induction over all histories of calls on all sessions of a partition tree. C01 bounds the
  total privacy loss of the log of answers. C03, C11: decision logic of a single call.
* C04, C09, C10: arithmetic on extended rationals with rounding.
* C12, C13, C51: `bisect` specified by counting; bins stated by interval membership and counts of a histogram.
* C14, C15, C17, C18, C49: semantics of constraints on all tables; C17 compares tables that differ in the rows of one ID.
* C38, C39, C40, C42, C43, C44: laws of small data structures; C43 over all programs with nested `with` blocks.
* C19, C20, C21, C41, C16: induction over query expressions. The specification (`Conform`, `Ids`) says when a table fits
  a schema and when each row of a result belongs to one ID, without using the compiler.
* C27, C28, C29, C30, C31, C32: the compiled query (`Plan`) against a specification of the exact answer, the noise and
  the budget.
* C33, C34, C35, C37: relation trees and nested dictionaries by structural induction; the builder over all call sequences.
* C22, C23, C24, C25, C26, C52: denotation of operation trees (`KeySet/Spec`); each rewriting rule and the whole pipeline
  keep it; the classes are related to it over all KeySets that can be built.
* C45: heap of builders, expressions and argument lists; all programs. C46, C53: comparison as implemented against the
  meaning of queries (`denote`).
* C48, C54: distances between tables, by induction over expressions. C54 is about whole queries.
* C50: distributions over transcripts; induction over the interaction with a potential function that holds the budget
  not yet spent by any session.
* C55: the distances that the compiler computes are bounds on how tables move (`Whole/Stable`, `Views`, `Measure`), also
  for a share of the protected change; `Partition` divides a change among the parts. C56: C55 gives the assumptions of C50;
  `Start` relates neighbouring databases to the tables of the new session.
* C57: `Meaning/Spec` says for each transformation which tables are right, as a relation between tables (each row of the
  result comes from a row of the input, and so on); induction over expressions shows that the compiled one is among them.
  `MeansBy true` reads left joins of tables with IDs and public tables as inner joins, which is what is computed.
  `Faithful` says that the computed table is right in this sense, and as documented if there are no such joins.
  C58: `Whole/Answers` puts this together with what a session keeps, enforces before partitions and truncates.
* C59: what the schema of a query says against the table that its plan returns, for every answer that core may give
  (`CoreOK`: plain values of the types that core documents).
* C60: an invariant over all sequences of calls: every session has data that its schemas describe, and C55 and C58 keep
  this for views and parts.
* C61: `Whole/Exact` computes the answer from the documented rows (`aggregate`) and shows that what core is asked for gives
  the same; C58 says which rows core gets, C60 that constraints are true when a query is evaluated.
* C62: by induction on the expression, the compiled table has the domain and the metric that the schema calls for (`Fits`);
  then each step of rewriting and compiling an aggregation is shown to succeed. `Ready` and `Answerable` are the conditions
  (among them: no table is joined directly with itself, which core is assumed to refuse).
  `Whole/Total` applies this to the catalog of a session at any time: by an invariant its tables without IDs have no constraints.
* C63: `Splittable` says in terms of the getters what allows a partition; shown to be equivalent to what the code checks.
* C64: `Binned` says which values belong to a bin by the edges alone; the binary search is shown to find that bin (C12). The query is the expression that `histogram` builds: a row-by-row map, a KeySet from `bins()`, a count.
* C65: a refinement. `Nested/Model` has the private tables of a session where core has them, in dictionaries of dictionaries
  with temporary entries; `Rep` relates such a state to the list of tables that `Whole` uses. Every step of a query, every
  call and by induction every history keeps `Rep`, with the same results. Whether core joins a table with itself and makes
  an empty `Subset` is left open (`Nested.Core`). Temporary tables get numbers that no live temporary table has.
  `Nested/Mid` has the tables stored half way, when nulls are handled and NaNs are not.
* C66: `KExpr` are Python expressions made of the constructors and operators of KeySets; `KExpr.Den` is what the
  documentation says they stand for, without operation trees. By induction the object that is built has these keys (C23),
  and `viewOf` is what aggregations see of it; C61 gives the answer.
* C67: `Call.total` is the budget for which core's measurement is private (`Core.Private`); compared with what `Session.step`
  takes from the remaining budget.
* C68: pairs of runs. `Twin` calls of the builder differ in the rows of private frames; `Relation.seen` lists what is
  returned or raised. For the session, the distribution of what an analyst sees with a core whose answers ignore its tables.
  That calls other than `evaluate` do not read private rows is how the model of sessions is built, following the code,
  which keeps them in core's accountant; exceptions of Spark while a query is computed are not modelled.
* C69: `PExpr` adds `KeySet._detect` to `KExpr`; `PExpr.Den` is what an expression stands for, given what will be detected
  (`Detected`: any keys). Plans have no data frame in /repo; what they stand for is read off their operation tree.
* C70: `fromDataframe` is three calls of a builder; C37, C33, C58 and C60 are put together for one table, and read back to
  the data frame as given, before its types are coerced.
* C71: `finish` is `groupby` and a method; `Method.documented` is written from the docstrings, with its own default names,
  bounds as numbers, and what each docstring says of infinite values. `Stats` (C61) is what core computes from the values.
* C72: a `Chain` is a sequence of calls on builders used once. `Chain.Valid` are the documented arguments, `Chain.columns` the
  documented columns, `Chain.Documented` the tables that the docstrings allow, a relation since truncations and flat maps
  that keep some rows may choose. `Chain.build` makes the query expressions of `Expr`. `C72_answer_partial` is about whole
  sessions: `T` is an allowed table of the rows that the session has for its tables.
* C73: `largeRows` is the threshold of `suppress` on rows with an integer. `C73_suppress` compares two evaluations of the same
  session: the suppressed count fails, costs and leaves the session as the count does (`Alike` leaves aside the measurements
  that the accountant lists), and its distribution is the image of the count's. Only grouped counts have the method.
* C74: joins C45 and C72. The replay (`Program/Model`) has no sharing: each builder has its own `Chain`, copied when it is
  cloned or joined, with the contents that lists and dictionaries have at the time. `sim_call` shows that the heap and the
  replay agree after every call. `Builder/Heap` leaves open which calls raise; `Faithful` says that they are those that
  `Whole/Chain` refuses, and `checks_faithful` shows such an oracle. `Given` says which data frames and `BinningSpec`s the
  object identities of the heap stand for. Names of columns are given by the caller, as in `Builder/Heap`.
* C75: `Bins/Model` is the constructor of `BinningSpec` on Python objects, with its type checks and the names as strings;
  what it makes is a `Spec` of `Binning/Model`, so C12 and C13 apply to it. `Less`, `Same`, `Between` and `Belongs` say in
  terms of values which bin a value is in. `C75_names` reads the brackets of default names by `Between`. `C51_rendered`
  relates the pairs that `Binning/Model` has for names of float edges to the strings.
* C76: `Chain.Fits` says, call by call and in terms of the names and types of columns, the ID column, the grouping column and
  the ID space, which tables a chain needs. `C76_fits` says that the schema checks of the query expressions ask for exactly
  this; it is proved by induction on the chain, each check by its own characterisation (`Needs`). Assumed of Spark: whether an
  SQL condition can be used depends on the names and types of the columns (`Chain.ByTypes`). `C76_view_partial` and
  `C76_answered` are about reached sessions; for views that fit, the further conditions of C62 (`Ready`) are needed.
* C77: the headers and cells that `_describe_schema` gives to `tabulate` are modelled; `C77_table` says that they determine the
  schema up to what only matters for float columns (`SameTable`), and nothing more. `C77_view` relates `describe(builder)` to
  `create_view` followed by `describe(name)`, in any reached session. `C77_answer_partial` lifts C59 to sessions and to
  random answers; core is asked only that each row is a key followed by values of the types of the aggregation (`RowsOf`).
* C78, C79: no further code; consequences of C56. Closeness is kept under any function of the answers (`within_bind`), and
  adds up along chains of neighbouring databases (`PureClose.trans`, `ApproxClose.trans`, and for zCDP `ZCDPClose.trans` by
  Hölder's inequality: from a² and b² to (a + b)²). `Apart k` is such a chain; `rows_apart` and `ids_apart` make one from
  tables that differ by `k m` rows or in the rows of some IDs.
* C81: no further code; several worlds of C50 side by side (`interleaved`). `step_close` is the step of the proof of C50 on
  its own; what is left in all sessions is summed. In `adaptive` sessions are opened on the way; what has not been given to
  sessions yet is added to the sum. A session that would exceed the total is not opened: the theorem is about analysts who
  keep within it.
* C82: no further code. `namedIn` lists the names in a call, `SameBut S` says that builders are given the same tables apart
  from the rows of those in `S`. The invariant is `AllDeaf`: in every session, tables and views with names outside of `S` do not
  depend on the data of those in `S`. A part of a partition may be given any name; to use it under a name in `S` counts as
  naming a table of `S`.
* C84: no further code. `Shuffled` says that builders are given the same tables with rows in another order. The invariant
  is `AllCalm`: tables and views of all sessions depend on the order only in the order of their rows. What `enforce` and joins
  keep is decided by the orders `Hash` (`Constraint/Model`), which tell different rows apart.
* C85: `_noise_info` finds noise in the measurement for a sample KeySet with one row. The model tells what decides about the
  noise (`Noise`); it has the columns of the KeySet, not its rows. `compileQuery_withRows` shows that the plan of a query has
  other keys and is else the same. `compileM_covered` shows that core's check of what a measurement promises never fails in a
  session of the library (`C85_session`).
* C94: `Amounts` are the numbers of a finite budget, `Costs` says that a budget is of the session's kind, not negative, and a float
  (rounding down keeps it). An `ApproxDPBudget` with delta 1 counts as infinite in the code and is excluded.
* C93: no further code; `Op.target` is the session of a call. The condition is that the session is not stopped at the end; stopped
  sessions stay so (C08).
* C92: `asks` are calls of `evaluate`, `asksOut` the same with another expression in place of a table. `C88_program_partial` is C88
  for any number of queries; C92 is the case of views that are a table, which need no exception, together with C91.
* C91: `Unrelated` says that a call in the session does not mention a name; `outcomes` lists what calls return or raise. The
  relation `LikeBut v` (same tables but for `v`, same budget, same life) is kept by unrelated calls.
* C90: `Independent` says that two calls in one session have different names and do not use each other's. `Answers` compares the
  outcome of all queries. Calls in different sessions are not covered: a call may stop the descendants of its session. The
  calls may fail, or the session may be stopped already.
* C89: `SameTables` compares what two sessions have under the names of a query (`Expr.sources` and `publics`). A private name may
  be a public one as well (parts are not checked against public tables, C36); the code then refuses the query
  (`PrivateSource.schema`), so the names must be public in both sessions or in none. `C89_named_matters` shows that the named
  tables do matter.
* C88: `Expr.inline name v e` is `e` with `v` in place of table `name`; `writtenOut` is a query made this way. The code disagrees
  with the claim for views with flat maps that group: a view is compiled with the mechanism of the session's privacy notion
  (`_compiler.py` l. 82-86, 212-217), and a query with its own (`inner_metric`), so in a zCDP session a query with Laplace noise is
  accepted only if the view is written out (`C88_fails`). `C88_view_partial` excludes these views by `NoGroups v ∨ ctx.m ≠ .zCDP`.
  The NaN and infinity flags of columns other than floating point ones are lost when the view is stored, so that its schema is
  only `Alike` to the one of the expression. Nothing that a query does tells the two apart, except for a filter: its condition is
  any function of the schema in the model, and `FiltersBySpark` says that it looks only at what Spark sees. This is what the code
  does (`Filter.schema`, `_query_expr.py` l. 404-419, tries the condition on an empty Spark data frame).
* C87: `Comparable` budgets are of one kind, zero in the same components, and both finite or both infinite. Then the measurements
  agree in all but their three budgets (`Meas.unpriced`). `C87_delta_matters` shows that the condition is needed.
* C86: `tryBlock` runs the program of `check_installation` on the whole model: `from_dataframe`, `from_dict`, `groupby`, `count`,
  `evaluate`, then the four checks. The table is random; the theorem is about its support. Success is decided by
  `C62_evaluate_partial`, the checks are compared with permutations of the expected columns and keys.
* C83: the arithmetic of the message is on floats: `up` (`to_float(round_up=True)`), `rnd` and `round3` are parameters with the
  laws `Floats.Lawful`, which hold of Python's floats away from subnormal numbers. `refusal` (`Session/Model`) decides which
  exception is raised; `message_canFormat` ties it to the message.
* C80: no further code. `Equivalent` is the specification: the laws, closed under all constructors. `Same` is what the rest of the
  library sees of an expression (schema, compiled transformation, stability, source tables); laws keep it, and the rewriting
  and compiling of queries depend on nothing else. The conclusion is equality of the whole result of the call, which
  contains the measurement that core is asked for and the table it is applied to.

## 5. Where the code and a claim disagree

In each case the negation is proved with a witness, and the claim is proved for the rest (`…_partial`).

| claim | disagreement | theorem |
|---|---|---|
| C02 | a rejected call may retire the sessions of an earlier partition | `C02_rejected_call_retires` |
| C03 | the tolerance is relative to the remaining budget rounded to a float, so a request within 10⁻⁹ can be refused | `C03_rounding_gap` |
| C09 | an infinite budget times 0 raises; an approximate budget with δ = 1 counts as infinite but half of it is finite; adding the zero budget can round | `C09_mul_infinite_zero_raises`, `C09_div_infinite_is_finite`, `C09_add_zero_rounds` |
| C16 | a private join keeps a limit on groups as if it limited rows; `replace_null_and_nan()` without arguments merges groups and keeps the limit of rows per group | `C16_fails_join`, `C16_fails_replace` |
| C19, C20, C41 | `rename` accepts two columns with the same new name | `C19_fails`, `C20_fails`, `C41_fails` |
| C21 | `replace_infinity()` without arguments also replaces infinities in the grouping column | `C21_fails` |
| C22, C23 | projecting a cross-join onto columns of one factor ignores that another factor is empty; rewriting refuses some valid joins and subtractions | `C22_rewrite_changes_rows`, `C22_rewrite_not_stable`, `C22_rewrite_rejects_joins`, `C22_rewrite_rejects_zero_subtract`, `C23_getitem_empty_fails` |
| C24 | unions and filters of KeySets without columns have size 0 | `C24_total_union_fails` |
| C25 | equal KeySets hash differently; comparing filters on `Column`s raises; plans are compared with column order | `C25_hash_fails`, `C25_column_conditions_raise`, `C25_plan_column_order_fails` |
| C30 | the compiler loses the δ of a finite budget with δ = 1; sessions make such budgets infinite first, so `evaluate` is not affected (`C30_session`) | `C30_fails` |
| C36 | `delete_view` deletes original tables; names of parts are not checked against public tables | `C36_delete_deletes_sources`, `C36_partition_name_clash` |
| C37 | after `build()` the ID space made for a single table stays declared | `C37_fails` |
| C39 | flags for NaN and infinity of columns that are not floats are lost | `C39_roundtrip_loses` |
| C40 | schemas that differ in column order are equal and hash differently | `C40_fails` |
| C44 | an entry `name` in a tree is taken for a noise mechanism | `C44_fails` |
| C45 | builder methods change the builder, so two queries cannot branch off from one builder | `C45_no_branching` |
| C46 | functions are compared by byte code without constants; frames through pandas; 1 equals 1.0 | `C46_bytecode_fails`, `C46_frames_fail`, `C46_types_fail` |
| C47 | the dictionary of public tables is shared by all sessions of a partition tree | `C47_public_tables_leak`, `C47_leak_witness` |
| C48 | the documented sensitivity of joins has the thresholds swapped | `C48_documented_formula_fails` |
| C51 | float edges that differ late have no default names | `C51_tiny_edges_fail` |
| C53 | queries with functions or frames compare by content and hash by identity | `C53_hash_fails` |
| C57 | a left public join of a table with IDs ignores `how` and drops unmatched rows: it is an inner join, and nothing else differs (`C57_computed_partial`) | `C57_left_fails` |
| C59 | KeySets with null keys are accepted for columns without nulls; an output column may have the name of a group-by column | `C59_null_fails`, `C59_collision_fails` |
| C62 | refused though the schema can be computed: `count_distinct` of given columns with automatic keys (a tuple has no `schema`), or with people bounded by a column that is neither counted nor grouped by; groups that include the ID column; an aggregation of the column by which people are bounded; a left public join of a table with IDs; a grouping flat map without `augment`; `drop_infinity()` of a table grouped by a float column; a private join of a grouped table; a public join that renames the grouping column and makes another of its name; Laplace noise on a grouped table in a zCDP session | `Total.C62_distinct_auto_fails`, `Total.C62_distinct_groups_fails`, `Total.C62_groups_id_fails`, `Total.C62_measure_bound_fails`, `Total.C62_left_join_fails`, `Total.C62_grouping_map_fails`, `Total.C62_drop_infinity_fails`, `Total.C62_join_grouped_fails`, `Total.C62_join_name_fails`, `Whole.Example.C62_laplace_fails` |
| C67 | with an `ApproxDPBudget` and a KeySet, the measurement is built with δ = 0 (a warning says that δ "will be replaced with zero"), but `evaluate` takes the requested δ from the session | `Whole.Example.C67_fails`, `Whole.C67_delta_lost` |
| C69 | a plan may detect the same column twice, a KeySet may not have it twice | `C69_repeated_columns` |
| C71 | `count_distinct`, `min`, `max` and `median` take an empty name for no name, the other methods do not; infinite values are clamped by all methods but `get_bounds`, though `QueryBuilder.quantile`, `min`, `max`, `median` and `GroupedQueryBuilder.min`, `max`, `median`, `sum`, `average`, `variance`, `stdev` are documented to drop them | `Whole.Example.C71_name_fails`, `Whole.Example.C71_infinity_fails` |
| C83 | `evaluate` with a `PureDPBudget` that is too large for a session with an `ApproxDPBudget` raises `AnalyticsInternalError` and not `RuntimeError`, as the message is made with the budget before it is converted; differences below 0.0005 are rounded to 0 before they are printed in scientific notation | `C83_mixed_fails`, `C83_zero_difference` |

A string given for `join_columns` is split into its characters, unlike one given to `select` or `drop_infinity`
(`Whole.Example.C72_string_columns`); only the latter declare strings in their signatures.

`describe(name)` is documented to describe "the table with that name", and to be short for `describe(QueryBuilder(name))`; it
raises `ValueError` for public tables, which `describe()` does list (`C77_public_fails`).

A join that is not on the ID column, though both tables have it, fails with a `KeyError` from the constructor of `Schema` and
not with a `ValueError` of the join (`Whole.Example.C76_key_error`); the column is renamed in both tables.

If the table that `check_installation` gets has no rows, an exception with a hint about the Spark warehouse is raised
(`utils.py` l. 111-122). The handler (l. 156) keeps exceptions whose text begins with "It looks like the analytics session",
which no exception of the library does, and replaces all others by a general message (`C86_hint_fails`). If there were one, the
handler would swallow it, and the function would return as if all was well.

Seen in the source and not formalised: `TemporaryTable.__copy__` returns `None`; ties between equally
cheap truncations are broken by the iteration order of a set.

## 6. Axioms of every theorem in the manifest

Printed by `#print axioms` (Lean 4.33.0). No theorem uses any other axiom, `sorryAx`, or compiled evaluation.

### Classical.choice, Quot.sound, propext (407)

- `Verif.Session`: `C01_never_overspent`, `C01_every_session`, `C01_loss_well_defined`, `C01_answers_are_logged`, `C01_log_grows`, `C02_rejected_call_changes_nothing`, `C02_active_session_unchanged`, `C02_rejected_call_retires`, `C03_decision_partial`, `C03_rounding_gap`, `C05_infinite`, `C06_spend_all`, `C06_never_increases`, `C07_charged_once`, `C07_isolated`, `C08_one_active`, `C08_retired_forever`, `C08_use_supersedes`, `C11_gatekeeping`, `C36_create`, `C36_create_delete`, `C36_delete_unknown`, `C36_delete_deletes_sources`, `C36_names_partial`, `C36_identifiers`, `C36_partition_name_clash`, `C47_private_unaffected_partial`, `C47_public_tables_leak`, `C47_leak_witness`, `C83_exception_partial`, `C83_partition`, `C83_components`, `C83_difference`, `C83_amounts`, `C85_used`, `C85_refused`, `C85_told`, `C85_spent`, `C85_spent_refused`
- `Verif.Budget`: `C04_adjust_number`, `C04_adjust_number_le`, `C04_adjust_budget`, `C09_valid`, `C09_add_comm`, `C09_add_exact`, `C09_add_assoc`, `C09_add_zero`, `C09_add_zero_rounds`, `C09_sub_exact_pure`, `C09_sub_add`, `C09_kinds`, `C09_scale`, `C09_scale_infinite_partial`, `C09_mul_infinite_zero_raises`, `C09_div_infinite_is_finite`, `C09_infinite`, `C09_sub_exceeds`, `C09_infinite_example`, `C10_budget_eq`
- `Verif.Whole`: `C05_library`, `C06_library`, `C30_session`, `C55_measurement`, `C55_view`, `C55_partition`, `C56_session`, `C56_builder`, `coin_private`, `C58_start`, `C58_part`, `C58_view_partial`, `C58_query_partial`, `C60_reports`, `C60_unchanged`, `C60_start`, `C60_constraints_partial`, `C61_session_partial`, `C61_exact_partial`, `C61_auto_partial`, `C61_groups_partial`, `C62_view_partial`, `C62_evaluate_partial`, `C63_partition`, `C64_histogram_partial`, `C64_answered_partial`, `C66_keys_partial`, `C66_exact_partial`, `C66_view_partial`, `C67_charged_partial`, `C67_delta_lost`, `C68_session`, `C68_program`, `C68_example`, `C70_session`, `C70_example`, `C71_accepts`, `C71_answer_partial`, `C72_accepts`, `C72_columns`, `C72_answer_partial`, `C73_accepts`, `C73_suppress`, `C73_answer_partial`, `C73_groups_partial`, `C76_fits`, `C76_view_partial`, `C76_answered`, `C77_table`, `C77_name`, `C77_view`, `C77_answer_partial`, `C77_groups_partial`, `C77_grouped_partial`, `C77_groups_shown`, `C77_public_fails`, `C78_derived`, `C79_group`, `C79_rows`, `C79_ids`, `C80_evaluate`, `C80_view`, `C81_sessions`, `C81_opened`, `C82_unread`, `C82_protected`, `C84_order`, `C85_session`, `C85_spends`, `C85_keys`, `C85_noise_keys`, `C86_succeeds_partial`, `C86_checks`, `C86_means`, `C86_raises`, `C86_hint_fails`, `C87_noise`, `C87_answered`, `C87_less`, `compileM_inline`, `C88_view_partial`, `C88_program_partial`, `compileM_named`, `C89_sessions`, `C89_unnamed`, `transform_named`, `partTab_named`, `C90_swap`, `C90_any_order`, `C90_queries`, `C91_unused`, `C91_deleted`, `C91_reused`, `C92_renamed`, `C93_others`, `C94_each_first`, `C94_any_order`, `C94_infinite`
- `Verif.Binning`: `C12_unique_bin`, `C13_bins_exact`, `C13_histogram`, `C51_default_names_partial`, `C51_tiny_edges_fail`
- `Verif.Constraint`: `C14_simplify`, `C15_enforce`, `C15_order_independent`, `C17_one_id`, `C17_neighbours`, `C18_cheapest`, `C18_answerable`, `C49_shortcut`
- `Verif.Expr`: `C16_constraints_hold_partial`, `C16_fails_join`, `C16_fails_replace`, `C19_schema_describes_data_partial`, `C19_fails`, `C20_id_survives_partial`, `C20_fails`, `C21_tracked`, `C21_values_partial`, `C39_init`, `C39_frame`, `C41_rename_partial`, `C41_rejects`, `C41_fails`, `C62_build_partial`
- `Verif.Query`: `C21_required`, `C21_refused`, `C27_one_row_per_key`, `C27_absent`, `C27_total`, `C27_auto`, `C28_right_noise`, `C28_refused`, `C29_special_values_partial`, `C29_numbers_only_partial`, `C31_no_delta`, `C31_all_used`, `C31_within`, `C32_suppress`, `C32_exact`, `C59_answer_partial`, `C59_groups_partial`, `C59_null_fails`, `C59_collision_fails`, `C62_agg_partial`, `C62_suppress_partial`, `C62_groups_partial`, `C87_compile`, `C88_compile`, `C89_compile`
- `Verif.KeySet`: `C22_rewrite_keeps_keys_partial`, `C22_rewrite_keeps_rows_partial`, `C22_rewrite_changes_rows`, `C22_rewrite_not_stable`, `C22_rewrite_rejects_joins`, `C22_rewrite_rejects_zero_subtract`, `C23_dataframe`, `C23_from_tuples`, `C23_from_dataframe`, `C23_from_dict`, `C23_mul`, `C23_sub_partial`, `C23_getitem_partial`, `C23_join`, `C23_filter`, `C23_union`, `C23_getitem_empty_fails`, `C24_size_partial`, `C24_total`, `C24_total_union_fails`, `C25_eq`, `C25_is_equivalent`, `C25_equivalence`, `C25_eq_answers`, `C25_hash_partial`, `C25_plan_equivalent`, `C25_hash_fails`, `C25_column_conditions_raise`, `C25_plan_column_order_fails`, `C26_decompose`, `C26_recombine`, `C52_schema_describes_rows`, `C69_plan_partial`, `C69_keyset_partial`, `C69_nothing_detected`, `C69_repeated_columns`
- `Verif.Whole.Example`: `C30_example`, `C56_example`, `C58_example`, `C60_example`, `C61_example`, `C61_groups_example`, `C62_laplace_fails`, `C63_example`, `C64_example`, `C64_answered_example`, `C66_example`, `C67_fails`, `C71_name_fails`, `C71_infinity_fails`, `C71_example`, `C72_example`, `C72_documented_example`, `C72_string_columns`, `C73_example`, `C73_groups_example`, `C76_example`, `C76_missing`, `C76_key_error`, `C77_example`, `C77_rows_example`, `C77_query_example`, `C78_example`, `C79_rows_example`, `C79_ids_example`, `C81_example`, `C81_opened_example`, `C82_example`, `C82_protected_example`, `C84_example`, `C85_keys_example`, `C85_noise_example`, `C86_example`, `C87_example`, `C87_delta_matters`, `C88_example`, `C88_fails`, `C89_example`, `C89_named_matters`, `C90_queries_example`, `C90_example`, `C90_example_answered`, `C90_dependent`, `C91_example`, `C91_example_answered`, `C91_used`, `C92_example`, `C92_example_answered`, `C93_example`, `C93_example_answered`, `C94_infinite_example`, `C94_example`, `C94_example_answered`, `C94_exceeded`
- `Verif.Relation`: `C33_accepts`, `C33_session`, `C33_names`, `C33_tables`, `C34_distance`, `C34_domain`, `C37_names`, `C37_build`, `C37_build_partial`, `C70_accepts`
- `Verif.Schema`: `C39_coerce`, `C39_coerce_accepts`, `C40_hash_partial`, `C40_fails`, `C40_equivalence`
- `Verif.Misc`: `C42_decides`, `C42_errors`, `C42_sets`, `C44_noise_partial`, `C44_fails`
- `Verif.Builder`: `C45_query_fixed`, `C45_grouped_fixed`, `C45_builder_kept`, `C45_transform`, `C45_join`, `C45_groupby`, `C45_aggregate`, `C45_clone`, `C46_eq_partial`, `C46_is_equivalent_partial`, `C46_bytecode_fails`, `C46_frames_fail`, `C46_types_fail`, `C46_frames`, `C46_frames_example`, `C53_hash_partial`, `C53_hash_fails`
- `Verif.Stability`: `C48_rows`, `C48_flat_map`, `C48_join`, `C48_groups_sum`, `C48_groups_root_partial`, `C48_documented_formula_fails`, `C54_query_rows`, `C54_query_ids_partial`, `C54_ids_partial`
- `Verif.Composition`: `C50_adaptive`, `within_bind`, `C81_several`, `C81_adaptive`
- `Verif.Bins`: `C51_rendered`, `C75_accepts`, `C75_errors`, `C75_call`, `C75_descriptor`, `C75_names`, `C75_bins`, `C75_histogram_accepts`, `C75_histogram_partial`
- `Verif.Meaning`: `C57_computed_partial`, `C57_transformations_partial`, `C57_left_fails`
- `Verif.Meaning.Example`: `C57_example`
- `Verif.Query.Total`: `C62_distinct_auto_fails`, `C62_distinct_groups_fails`, `C62_groups_id_fails`, `C62_measure_bound_fails`, `C62_left_join_fails`, `C62_grouping_map_fails`, `C62_drop_infinity_fails`, `C62_join_grouped_fails`, `C62_join_name_fails`
- `Verif.Nested`: `C65_start`, `C65_history`, `C65_step`, `C65_sources`, `C65_table`, `C65_query`, `C65_create`, `C65_delete`, `C65_partition`
- `Verif.Nested.Example`: `C65_example`
- `Verif.Program`: `C74_builders`, `C74_queries`, `C74_accepts`, `C74_accepts_join`, `C74_answer_partial`, `C74_suppress_partial`, `C74_groups_partial`
- `Verif.Program.Example`: `checks_faithful`, `program_replayed`, `C74_example`
- `Verif.Bins.Example`: `C75_names_example`, `C75_example`
- `Verif.Composition.PureClose`: `trans`
- `Verif.Composition.ApproxClose`: `trans`
- `Verif.Composition.ZCDPClose`: `trans`
- `Verif.Whole.Example.Rewrite`: `C80_example`, `C80_map_example`, `C80_enforce_fails`
- `Verif.Session.Demo`: `C83_example`, `C83_mixed_fails`, `C83_zero_difference`

### Quot.sound, propext (25)

- `Verif.Binning`: `C12_covers`
- `Verif.Expr`: `C20_rejects`, `C21_fails`, `compile_inline`
- `Verif.KeySet`: `C25_self`, `C25_plan_self`
- `Verif.Query`: `C28_total`, `C28_nothing_else`
- `Verif.Relation`: `C35_found`, `C35_exact`, `C35_all`, `C37_keeps`
- `Verif.Schema`: `C38_roundtrip`, `C38_lookup`, `C38_eq`, `C38_merge`, `C39_roundtrip_partial`, `C39_roundtrip_keeps`, `C39_domain_roundtrip`, `C39_spark_roundtrip`, `C39_struct`
- `Verif.Misc`: `C43_nested`
- `Verif.Nested`: `midReplace_then`
- `Verif.Nested.Example`: `midReplace_then_example`
- `Verif.Whole`: `C68_builder`

### No axioms (1)

- `Verif.Schema`: `C38_hash`

### propext (12)

- `Verif.KeySet`: `C24_fast_size`
- `Verif.Relation`: `C35_missing`, `C35_injective`, `C37_rejected`, `C37_fails`
- `Verif.Schema`: `C39_roundtrip_loses`
- `Verif.Misc`: `C43_restored`, `C43_inside`, `C43_others`
- `Verif.Builder`: `C45_raised`, `C45_no_branching`
- `Verif.Nested`: `midDrop_then`
