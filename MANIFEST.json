{
 "claims": [
  {
   "property": "C01",
   "status": "proved",
   "theorems": [
    "Verif.C01_literal",
    "Verif.matchResource_run",
    "Verif.matchResource_diverge_run"
   ],
   "note": ""
  },
  {
   "property": "C02",
   "status": "proved",
   "theorems": [
    "Verif.C02_param_language",
    "Verif.matchResource_true_iff",
    "Verif.matchResource_false_iff",
    "Verif.matchResource_no_panic"
   ],
   "note": ""
  },
  {
   "property": "C03",
   "status": "partial",
   "theorems": [
    "Verif.C03_counterexample",
    "Verif.C03_full_false",
    "Verif.C03_diverges_iff_partial",
    "Verif.C03_terminates_partial",
    "Verif.C03_pattern"
   ],
   "note": "C03_full is false (counterexample). Exact set of diverging inputs, exactly which patterns can diverge (C03_pattern), and termination without inner '*' are proved."
  },
  {
   "property": "C04",
   "status": "proved",
   "theorems": [
    "Verif.C04_trailing_star"
   ],
   "note": ""
  },
  {
   "property": "C05",
   "status": "partial",
   "theorems": [
    "Verif.C05_counterexample",
    "Verif.C05_full_false",
    "Verif.C05_action_partial",
    "Verif.C05_exact"
   ],
   "note": "C05_full is false when the last path segment has a parameter (counterexample). C05_exact: among the permissions that match anything these are exactly the ones that match another action."
  },
  {
   "property": "C06",
   "status": "proved",
   "theorems": [
    "Verif.C06_segments",
    "Verif.C06_counterexample"
   ],
   "note": "The counterexample shows that the no-empty-segment condition is needed."
  },
  {
   "property": "C07",
   "status": "proved",
   "theorems": [
    "Verif.C07_search",
    "Verif.C07_search_default",
    "Verif.C07_nodup",
    "Verif.C07_insert_total"
   ],
   "note": ""
  },
  {
   "property": "C08",
   "status": "proved",
   "theorems": [
    "Verif.C08_first",
    "Verif.C08_first_default"
   ],
   "note": ""
  },
  {
   "property": "C09",
   "status": "partial",
   "theorems": [
    "Verif.C09_counterexample",
    "Verif.C09_full_false",
    "Verif.C09_loss_iff_partial",
    "Verif.C09_no_loss_partial"
   ],
   "note": "C09_full is false (counterexample). The exact loss condition is proved, and no loss when ids of different kinds are disjoint."
  },
  {
   "property": "C10",
   "status": "proved",
   "theorems": [
    "Verif.C10_order",
    "Verif.C10_reinsert"
   ],
   "note": ""
  },
  {
   "property": "C11",
   "status": "proved",
   "theorems": [
    "Verif.C11_default_search"
   ],
   "note": ""
  },
  {
   "property": "C12",
   "status": "proved",
   "theorems": [
    "Verif.C12_compact",
    "Verif.C12_contains"
   ],
   "note": ""
  },
  {
   "property": "C13",
   "status": "proved",
   "theorems": [
    "Verif.C13_join"
   ],
   "note": ""
  },
  {
   "property": "C14",
   "status": "proved",
   "theorems": [
    "Verif.C14_intersection",
    "Verif.C14_union",
    "Verif.C14_set_intersection",
    "Verif.C14_set_union",
    "Verif.C14_serialize_collision",
    "Verif.C14_serializeStruct",
    "Verif.C14_serialize_injective"
   ],
   "note": ""
  },
  {
   "property": "C15",
   "status": "proved",
   "theorems": [
    "Verif.C15_link"
   ],
   "note": ""
  },
  {
   "property": "C16",
   "status": "proved",
   "theorems": [
    "Verif.C16_has",
    "Verif.C16_order_independent",
    "Verif.RoleOp.reachable_ok"
   ],
   "note": "Answer of Has = flat reachability spec, for every heap reachable by the API (reachable_ok)."
  },
  {
   "property": "C17",
   "status": "proved",
   "theorems": [
    "Verif.C17_terminates",
    "Verif.C17_walk_iff",
    "Verif.C17_cycle",
    "Verif.C17_cycle_has",
    "Verif.C17_cycle_accepted"
   ],
   "note": "Termination under well-foundedness below the role; walk returns iff well-founded; AddDescendant accepts a cycle."
  },
  {
   "property": "C18",
   "status": "partial",
   "theorems": [
    "Verif.C18_listing",
    "Verif.C18_groups",
    "Verif.C18_usable_partial",
    "Verif.C18_has_partial",
    "Verif.C18_counterexample",
    "Verif.C18_full_false",
    "Verif.C18_group_listing",
    "Verif.C18_own_listing",
    "Verif.C18_exact"
   ],
   "note": "False as stated (role lacking the group): negation proved. Listings characterised exactly; a listed permission is usable exactly when the role carries the group."
  },
  {
   "property": "C19",
   "status": "proved",
   "theorems": [
    "Verif.C19_locked",
    "Verif.C19_lock",
    "Verif.C19_unlocked",
    "Verif.C19_addPermission_effect"
   ],
   "note": ""
  },
  {
   "property": "C20",
   "status": "partial",
   "theorems": [
    "Verif.C20_step",
    "Verif.C20_has",
    "Verif.C20_frozen_partial",
    "Verif.C20_counterexample",
    "Verif.C20_full_false",
    "Verif.C20_role",
    "Verif.C20_group",
    "Verif.C20_exact"
   ],
   "note": "False for shared groups: negation proved. For sealed (unshared) groups all histories preserve every answer of Has. C20_exact says exactly what a locked role with locked descendants grants after any history."
  },
  {
   "property": "C21",
   "status": "proved",
   "theorems": [
    "Verif.C21_error_iff",
    "Verif.C21_error_unchanged",
    "Verif.C21_success",
    "Verif.C21_granted",
    "Verif.C21_total"
   ],
   "note": ""
  },
  {
   "property": "C22",
   "status": "proved",
   "theorems": [
    "Verif.C22_first_wins",
    "Verif.C22_count",
    "Verif.C22_summary",
    "Verif.C22_lists",
    "Verif.C22_returns",
    "Verif.C22_never_forgets"
   ],
   "note": "Over all histories of the 25 modelled calls, for the seven registries."
  },
  {
   "property": "C23",
   "status": "proved",
   "theorems": [
    "Verif.C23_descendants",
    "Verif.C23_returns_iff",
    "Verif.C23_cycle",
    "Verif.C23_cycle_accepted"
   ],
   "note": "Root package. Exact subtree; returns iff the link relation is well-founded below the tenant."
  },
  {
   "property": "C24",
   "status": "proved",
   "theorems": [
    "Verif.C24_implicit_sound",
    "Verif.C24_cached"
   ],
   "note": ""
  },
  {
   "property": "C25",
   "status": "partial",
   "theorems": [
    "Verif.C25_implicit_exact_partial",
    "Verif.C25_in_order",
    "Verif.C25_counterexample",
    "Verif.C25_full_false"
   ],
   "note": "Full statement C25_full is false of the code (counterexample with two iteration orders). Proved for uniform flags per tenant, registered link targets, no stale caches; C25_in_order says what a given order includes without the condition on flags, C116 what some and all orders include."
  },
  {
   "property": "C26",
   "status": "proved",
   "theorems": [
    "Verif.C26_unknown_principal",
    "Verif.C26_denies_unknown",
    "Verif.C26_no_tenant"
   ],
   "note": "With a cached tenant set, 'has a tenant' means: had a row at some time."
  },
  {
   "property": "C27",
   "status": "proved",
   "theorems": [
    "Verif.C27_no_activity",
    "Verif.authorize_exact",
    "Verif.C27_C28_returns"
   ],
   "note": "Exact decision whenever the call returns; sufficient conditions for returning."
  },
  {
   "property": "C28",
   "status": "proved",
   "theorems": [
    "Verif.C28_activity",
    "Verif.authorize_exact",
    "Verif.C27_C28_returns"
   ],
   "note": "Exact decision whenever the call returns; sufficient conditions for returning."
  },
  {
   "property": "C29",
   "status": "partial",
   "theorems": [
    "Verif.C29_isolated_partial",
    "Verif.C29_tenant_only",
    "Verif.C29_any_tenant",
    "Verif.C29_counterexample",
    "Verif.C29_full_false"
   ],
   "note": "Full statement C29_full is false of the code. Exact meaning of tenant-only requests proved; isolation proved when p has no other implicit tenant."
  },
  {
   "property": "C30",
   "status": "partial",
   "theorems": [
    "Verif.C30_role_grant_partial",
    "Verif.C30_always_denied",
    "Verif.C30_counterexample",
    "Verif.C30_full_false"
   ],
   "note": "Full statement C30_full is false: tenant+activity requests are always denied. With a namespace in the request the grant works."
  },
  {
   "property": "C31",
   "status": "partial",
   "theorems": [
    "Verif.C31_own_role_partial",
    "Verif.C31_borrowed",
    "Verif.C31_counterexample",
    "Verif.C31_full_false",
    "Verif.C31_exact",
    "Verif.C31_everyone"
   ],
   "note": "Full statement C31_full is false for tenant+namespace and tenant+scope. Proved when both namespace and scope are named. C31_exact says exactly which activities a principal without roles is granted."
  },
  {
   "property": "C32",
   "status": "partial",
   "theorems": [
    "Verif.C32_grant_takes_effect_partial",
    "Verif.C32_denied_for_ever",
    "Verif.C32_kept",
    "Verif.C32_exact",
    "Verif.C32_counterexample",
    "Verif.C32_full_false"
   ],
   "note": "Full statement C32_full is false (empty set cached). Proved unless an empty set is cached; C32_exact says by the calls made so far when that is: the principal was first looked up while in no tenant."
  },
  {
   "property": "C33",
   "status": "proved",
   "theorems": [
    "Verif.C33_only_caches",
    "Verif.C33_repeatable",
    "Verif.C33_cached_deterministic"
   ],
   "note": ""
  },
  {
   "property": "C34",
   "status": "proved",
   "theorems": [
    "Verif.C34_incomplete"
   ],
   "note": ""
  },
  {
   "property": "C35",
   "status": "proved",
   "theorems": [
    "Verif.C35_addPrincipalWithRole",
    "Verif.C35_addScopeToPrincipal",
    "Verif.C35_addPrincipal",
    "Verif.C35_assignScopes",
    "Verif.C35_unmanaged"
   ],
   "note": "Errors, totality and exact row effects."
  },
  {
   "property": "C36",
   "status": "partial",
   "theorems": [
    "Verif.V1.C36_roundtrip",
    "Verif.V1.C36_decodes",
    "Verif.V1.C36_rows",
    "Verif.V1.C36_counterexample",
    "Verif.V1.C36_collision",
    "Verif.V1.C36_full_false"
   ],
   "note": "Full statement C36_full (no restriction on ids) is false. Proved exactly for ids without '_'."
  },
  {
   "property": "C37",
   "status": "proved",
   "theorems": [
    "Verif.V1.C37_exact",
    "Verif.V1.C37_returns"
   ],
   "note": ""
  },
  {
   "property": "C38",
   "status": "partial",
   "theorems": [
    "Verif.V1.C38_exact_partial",
    "Verif.V1.C38_full_false"
   ],
   "note": "Full statement C38_full is false. The exact decision is proved."
  },
  {
   "property": "C39",
   "status": "partial",
   "theorems": [
    "Verif.V1.C39_partial",
    "Verif.V1.C39_tns_partial",
    "Verif.V1.C39_full_false"
   ],
   "note": "Full statement C39_full is false for tenant+namespace+scope. Proved for all other shapes."
  },
  {
   "property": "C40",
   "status": "proved",
   "theorems": [
    "Verif.V1.C40_exact",
    "Verif.V1.C40_roles_of_tenant",
    "Verif.V1.C40_edges"
   ],
   "note": ""
  },
  {
   "property": "C41",
   "status": "proved",
   "theorems": [
    "Verif.V1.C41_exact"
   ],
   "note": ""
  },
  {
   "property": "C42",
   "status": "partial",
   "theorems": [
    "Verif.V1.C42_partial",
    "Verif.V1.C42_empty",
    "Verif.V1.C42_full_false"
   ],
   "note": "Full statement C42_full is false (empty allow-list means no restriction). Proved when the allow-list is not empty; C42_empty gives the exact decision for an empty one."
  },
  {
   "property": "C43",
   "status": "proved",
   "theorems": [
    "Verif.V1.C43_addPrincipalRole",
    "Verif.V1.C43_addPrincipal",
    "Verif.V1.C43_addPrincipalInNamespace",
    "Verif.V1.C43_addPrincipalInNamespace_copy",
    "Verif.V1.C43_assignScopesToPrincipal",
    "Verif.V1.C43_assignScopesWithRole",
    "Verif.V1.C43_default_known",
    "Verif.V1.C43_histories",
    "Verif.V1.C43_never_removed"
   ],
   "note": "Exact effects of the calls and their consequence over histories."
  },
  {
   "property": "C44",
   "status": "proved",
   "theorems": [
    "Verif.C44_acyclic",
    "Verif.Dag.C44_effect"
   ],
   "note": "Over all histories of the modelled v2 calls."
  },
  {
   "property": "C45",
   "status": "proved",
   "theorems": [
    "Verif.Dag.C45_exact",
    "Verif.Dag.C45_terminates",
    "Verif.C45_rejects_diamond"
   ],
   "note": ""
  },
  {
   "property": "C46",
   "status": "proved",
   "theorems": [
    "Verif.Dag.C46_closure",
    "Verif.Dag.C46_children",
    "Verif.Dag.C46_terminates"
   ],
   "note": ""
  },
  {
   "property": "C49",
   "status": "partial",
   "theorems": [
    "Verif.V2.C49_exact_partial",
    "Verif.V2.C49_sound",
    "Verif.V2.C49_frame",
    "Verif.V2.C49_returns",
    "Verif.V2.C49_order_dependent",
    "Verif.V2.C49_full_false"
   ],
   "note": "Full statement C49_full is false: two tenant objects with one id make the answer depend on the map iteration order. Exact when ids identify tenants and no assignment expires during the call; sound always."
  },
  {
   "property": "C50",
   "status": "proved",
   "theorems": [
    "Verif.V2.C50_tenant",
    "Verif.V2.C50_place",
    "Verif.V2.C50_namespace",
    "Verif.V2.C50_scope"
   ],
   "note": ""
  },
  {
   "property": "C51",
   "status": "proved",
   "theorems": [
    "Verif.V2.C51_no_influence",
    "Verif.V2.C51_all_expired",
    "Verif.V2.C51_expired_manager"
   ],
   "note": ""
  },
  {
   "property": "C52",
   "status": "partial",
   "theorems": [
    "Verif.V2.C52_partial",
    "Verif.V2.C52_counterexample",
    "Verif.V2.C52_counterexample_default",
    "Verif.V2.C52_ignored",
    "Verif.V2.C52_full_false"
   ],
   "note": "Full statement C52_full is false for named and default tenants; C52_ignored says that for those no setting of the flag ever changes the answer."
  },
  {
   "property": "C53",
   "status": "partial",
   "theorems": [
    "Verif.V2.C53_partial",
    "Verif.V2.C53_exact",
    "Verif.V2.C53_counterexample",
    "Verif.V2.C53_full_false"
   ],
   "note": "Full statement C53_full is false (scoped permissions hide unscoped ones). C53_exact says exactly when a new assignment takes access away, for a named tenant."
  },
  {
   "property": "C54",
   "status": "partial",
   "theorems": [
    "Verif.V2.C54_exact_partial",
    "Verif.V2.C54_sound",
    "Verif.V2.C54_order_dependent",
    "Verif.V2.C54_full_false"
   ],
   "note": "Full statement C54_full is false for two tenant objects with one id. Exact when ids identify tenants; sound always."
  },
  {
   "property": "C55",
   "status": "proved",
   "theorems": [
    "Verif.V2.C55_resolution",
    "Verif.V2.C55_never_diverges",
    "Verif.V2.C55_can"
   ],
   "note": ""
  },
  {
   "property": "C56",
   "status": "proved",
   "theorems": [
    "Verif.V2.C56_targets",
    "Verif.V2.C56_total"
   ],
   "note": ""
  },
  {
   "property": "C58",
   "status": "proved",
   "theorems": [
    "Verif.Dag.C58_add",
    "Verif.Dag.C58_remove",
    "Verif.Dag.C58_sequence"
   ],
   "note": ""
  },
  {
   "property": "C59",
   "status": "proved",
   "theorems": [
    "Verif.V2.C59_authorize",
    "Verif.V2.C59_can"
   ],
   "note": ""
  },
  {
   "property": "C60",
   "status": "proved",
   "theorems": [
    "Verif.C60_setExpiry_rejects",
    "Verif.C60_setExpiry_accepts",
    "Verif.C60_setExpiryDuration",
    "Verif.C60_clear"
   ],
   "note": ""
  },
  {
   "property": "C47",
   "status": "partial",
   "theorems": [
    "Verif.V2.C47_roles_partial",
    "Verif.V2.C47_histories_partial",
    "Verif.V2.C47_frozen",
    "Verif.V2.C47_counterexample",
    "Verif.V2.C47_can_then_authorize",
    "Verif.V2.C47_authorize_then_can",
    "Verif.V2.C47_additions_ignored",
    "Verif.V2.C47_full_false"
   ],
   "note": "Full statement C47_full is false. Proved when the principal's roles are not cached (or cached with current permissions) and for histories whose role changes precede all decisions."
  },
  {
   "property": "C48",
   "status": "partial",
   "theorems": [
    "Verif.V2.C48_returns",
    "Verif.V2.C48_error",
    "Verif.V2.C48_frame",
    "Verif.V2.C48_exact_partial",
    "Verif.V2.C48_assigned_partial",
    "Verif.V2.C48_nil_iff",
    "Verif.V2.C48_panics",
    "Verif.V2.C48_index",
    "Verif.V2.C48_nil_panic",
    "Verif.V2.C48_remove_all",
    "Verif.V2.C48_counterexample",
    "Verif.V2.C48_full_false"
   ],
   "note": "Full statement C48_full is false. Exact when the removed assignments are at the end of the list; nil entries exactly otherwise, and later decisions panic. The index is always exact."
  },
  {
   "property": "C57",
   "status": "partial",
   "theorems": [
    "Verif.Pools.C57_undisturbed_partial",
    "Verif.Pools.C57_quiet_partial",
    "Verif.C57_exact_partial",
    "Verif.C57_can_exact_partial",
    "Verif.C57_authorize",
    "Verif.C57_can",
    "Verif.C57_calls_exist",
    "Verif.Pools.C57_worst",
    "Verif.Pools.C57_mixed",
    "Verif.Pools.C57_lost",
    "Verif.Pools.C57_full_false"
   ],
   "note": "Full statement C57_full is false: a map is reused by another resolution while a call still checks it. Proved for calls whose map is not handed out before the check is over; in any case a grant rests on a permission some call resolved."
  },
  {
   "property": "C61",
   "status": "proved",
   "theorems": [
    "Verif.C61_options",
    "Verif.C61_last_wins"
   ],
   "note": ""
  },
  {
   "property": "C62",
   "status": "proved",
   "theorems": [
    "Verif.C62_queries",
    "Verif.C62_own_tenants",
    "Verif.C62_wrapper",
    "Verif.C62_rolesByTenant",
    "Verif.C62_ids",
    "Verif.C62_descendantTenant"
   ],
   "note": ""
  },
  {
   "property": "C63",
   "status": "partial",
   "theorems": [
    "Verif.C63_report",
    "Verif.C63_returns",
    "Verif.C63_times",
    "Verif.C63_counterexample",
    "Verif.C63_full_false",
    "Verif.C63_once_partial"
   ],
   "note": "Exact as a report of sets; 'each role once' (C63_full) is false, proved for roles without descendants."
  },
  {
   "property": "C64",
   "status": "partial",
   "theorems": [
    "Verif.C64_report",
    "Verif.C64_counterexample",
    "Verif.C64_full_false",
    "Verif.C64_scopes_partial"
   ],
   "note": "The exact content is proved; C64_full (scopes of the requested tenant only, none tied to another principal, no nil role) is false, proved under the stated conditions."
  },
  {
   "property": "C65",
   "status": "proved",
   "theorems": [
    "Verif.C65_addDescendant",
    "Verif.C65_addGroup",
    "Verif.C65_addPermission_existing",
    "Verif.C65_addPermission_new",
    "Verif.C65_addAttributes",
    "Verif.C65_new"
   ],
   "note": ""
  },
  {
   "property": "C66",
   "status": "partial",
   "theorems": [
    "Verif.C66_text_partial",
    "Verif.C66_text_action_partial",
    "Verif.C66_counterexample",
    "Verif.C66_full_false",
    "Verif.C66_exact"
   ],
   "note": "C66_full is false for attributes whose parts contain spaces; proved when the resources, or the actions, are free of spaces. C66_exact says exactly which pairs share a text."
  },
  {
   "property": "C67",
   "status": "proved",
   "theorems": [
    "Verif.C67_toString",
    "Verif.C67_int_text",
    "Verif.C67_filterByFields",
    "Verif.C67_rowKey",
    "Verif.C67_filterFunc",
    "Verif.C67_filters"
   ],
   "note": "Integers stand for all other dynamic types; []byte and Stringer values are not modelled."
  },
  {
   "property": "C68",
   "status": "partial",
   "theorems": [
    "Verif.V1.C68_roles",
    "Verif.V1.C68_scopes",
    "Verif.V1.C68_tenantScopes",
    "Verif.V1.C68_rolePermissions",
    "Verif.V1.C68_permissions",
    "Verif.V1.C68_tenants",
    "Verif.V1.C68_counterexample",
    "Verif.V1.C68_full_false",
    "Verif.V1.C68_once_partial",
    "Verif.V1.C68_once"
   ],
   "note": "The lists are exact; C68_full (each tenant once) is false because only neighbours are compacted. C68_once: it holds in all iteration orders exactly when the principal has one tenant or one assignment per tenant."
  },
  {
   "property": "C69",
   "status": "partial",
   "theorems": [
    "Verif.V1.C69_exact",
    "Verif.V1.C69_counterexample",
    "Verif.V1.C69_full_false",
    "Verif.V1.C69_own_partial",
    "Verif.V1.C69_descendants",
    "Verif.V1.C69_returns",
    "Verif.V1.C69_cycle"
   ],
   "note": "The exact content is proved; C69_full (only the requested principal's assignments) is false for descendant tenants, proved under the stated condition."
  },
  {
   "property": "C70",
   "status": "proved",
   "theorems": [
    "Verif.V1.C70_first_wins",
    "Verif.V1.C70_count",
    "Verif.V1.C70_totals",
    "Verif.V1.C70_lists",
    "Verif.V1.C70_returns"
   ],
   "note": "Over all histories of the modelled v1 calls."
  },
  {
   "property": "C71",
   "status": "proved",
   "theorems": [
    "Verif.V1.C71_addNamespace",
    "Verif.V1.C71_addRole",
    "Verif.V1.C71_addDescendent",
    "Verif.V1.C71_setDefault",
    "Verif.V1.C71_addScopes",
    "Verif.V1.C71_addScopes_default",
    "Verif.V1.C71_nsAddScopes",
    "Verif.V1.C71_nsAddRoles",
    "Verif.V1.C71_addRolesToNamespace",
    "Verif.V1.C71_addRolesToNamespace_unknown",
    "Verif.V1.C71_addScopesToNamespace",
    "Verif.V1.C71_addScopesToNamespace_unknown",
    "Verif.V1.C71_new"
   ],
   "note": ""
  },
  {
   "property": "C72",
   "status": "proved",
   "theorems": [
    "Verif.C72_newTenant",
    "Verif.C72_addTenant",
    "Verif.C72_addNamespace",
    "Verif.C72_addScopesToNamespace",
    "Verif.C72_addPrincipalInNamespace",
    "Verif.C72_addRole",
    "Verif.C72_addScope",
    "Verif.C72_lists",
    "Verif.C72_setDefaultNamespace",
    "Verif.C72_addDescendant",
    "Verif.C72_addDescendant_panic"
   ],
   "note": ""
  },
  {
   "property": "C73",
   "status": "proved",
   "theorems": [
    "Verif.V2.C73_newTenant",
    "Verif.V2.C73_addNamespace",
    "Verif.V2.C73_addScope",
    "Verif.V2.C73_addChildTenant",
    "Verif.V2.C73_setStatus",
    "Verif.V2.C73_addTenant",
    "Verif.V2.C73_addTenants",
    "Verif.V2.C73_addPrincipalRole",
    "Verif.V2.C73_index",
    "Verif.V2.C73_index_removed"
   ],
   "note": ""
  },
  {
   "property": "C74",
   "status": "partial",
   "theorems": [
    "Verif.V2.C74_authorize",
    "Verif.V2.C74_can",
    "Verif.V2.C74_authorize_partial",
    "Verif.V2.C74_can_partial",
    "Verif.V2.C74_returns_partial",
    "Verif.V2.C74_can_counterexample",
    "Verif.V2.C74_remove_counterexample",
    "Verif.V2.C74_full_false"
   ],
   "note": "The dependence on own data is proved in full; C74_full (histories) is false because of pruning by Can and of nil entries, proved for histories without them."
  },
  {
   "property": "C75",
   "status": "partial",
   "theorems": [
    "Verif.C75_authorize",
    "Verif.C75_histories_partial",
    "Verif.C75_borrow_counterexample",
    "Verif.C75_clash_counterexample",
    "Verif.C75_full_false"
   ],
   "note": "C75_full is false for borrowed roles and for rows with equal values in order; proved for all other requests and histories."
  },
  {
   "property": "C76",
   "status": "partial",
   "theorems": [
    "Verif.V1.C76_authorize",
    "Verif.V1.C76_histories_partial",
    "Verif.V1.C76_borrow_counterexample",
    "Verif.V1.C76_forge_counterexample",
    "Verif.V1.C76_full_false"
   ],
   "note": "C76_full is false for tenant, namespace and scope requests and for principals whose id extends the principal's id by _; proved for all other requests and assignments."
  },
  {
   "property": "C77",
   "status": "partial",
   "theorems": [
    "Verif.V1.C77_allowedRoles",
    "Verif.V1.C77_stable_partial",
    "Verif.V1.C77_activity_partial",
    "Verif.V1.C77_complex_partial",
    "Verif.V1.C77_sequential",
    "Verif.V1.C77_counterexample",
    "Verif.V1.C77_concurrent_counterexample",
    "Verif.V1.C77_full_false"
   ],
   "note": "The result on return and sequential decisions are proved in full; C77_full (a result stays what it was) is false, proved as long as no later call is handed its array."
  },
  {
   "property": "C78",
   "status": "proved",
   "theorems": [
    "Verif.C78_singles",
    "Verif.C78_bulk",
    "Verif.C78_returns",
    "Verif.C78_lookup",
    "Verif.C78_newAttributes",
    "Verif.C78_summary",
    "Verif.C78_text",
    "Verif.C78_implicitScopes",
    "Verif.C78_v1_singles",
    "Verif.C78_v1_bulk",
    "Verif.C78_v1_lookup"
   ],
   "note": ""
  },
  {
   "property": "C79",
   "status": "proved",
   "theorems": [
    "Verif.C79_record",
    "Verif.C79_identifies",
    "Verif.C79_messages",
    "Verif.C79_status"
   ],
   "note": ""
  },
  {
   "property": "C80",
   "status": "partial",
   "theorems": [
    "Verif.C80_unique_partial",
    "Verif.C80_string_keys",
    "Verif.C80_exists",
    "Verif.C80_counterexample",
    "Verif.C80_full_false",
    "Verif.C80_exact",
    "Verif.C80_not_unique"
   ],
   "note": "C80_full is false for keys that are not strings; proved for maps whose keys have different sort texts. C80_exact says exactly when the text is unique."
  },
  {
   "property": "C81",
   "status": "partial",
   "theorems": [
    "Verif.C81_keeps_partial",
    "Verif.C81_counterexample",
    "Verif.C81_full_false"
   ],
   "note": "C81_full is false when a later row replaces a stored one with the same values in order; proved in all other cases."
  },
  {
   "property": "C82",
   "status": "partial",
   "theorems": [
    "Verif.V1.C82_resources",
    "Verif.V1.C82_activity_partial",
    "Verif.V1.C82_counterexample",
    "Verif.V1.C82_full_false",
    "Verif.V1.C82_own",
    "Verif.V1.C82_lost",
    "Verif.V1.C82_activity_only_partial"
   ],
   "note": "C82_full is false for requests with an activity; proved for all others, for activities while the list of allowed roles is kept, and for activities a role of the principal has itself. C82_lost says what must have happened to an activity that is lost."
  },
  {
   "property": "C83",
   "status": "proved",
   "theorems": [
    "Verif.Conf.C83_no_deadlock",
    "Verif.Conf.C83_terminates",
    "Verif.Conf.C83_all_return",
    "Verif.Conf.C83_exclusive"
   ],
   "note": "Modelled with sync.RWMutex semantics (an announced writer blocks new readers); Authorize and Can as arbitrary sequences of the accesses they make."
  },
  {
   "property": "C84",
   "status": "partial",
   "theorems": [
    "Verif.Conf.C84_guarded_partial",
    "Verif.Conf.C84_always_partial",
    "Verif.Conf.C84_fixed_partial",
    "Verif.Conf.C84_getRole_races",
    "Verif.Conf.C84_permissions_race",
    "Verif.Conf.C84_decisions_race",
    "Verif.Conf.C84_careless",
    "Verif.Conf.C84_full_false"
   ],
   "note": "C84_full is false; the calls that skip a lock are listed (LCall.Careless), each location is free of races while none of those runs, and each of those can race (C84_careless)."
  },
  {
   "property": "C85",
   "status": "partial",
   "theorems": [
    "Verif.Conf.C85_results_partial",
    "Verif.Conf.C85_still_partial",
    "Verif.Conf.C85_counterexample",
    "Verif.Conf.C85_full_false"
   ],
   "note": "C85_full (equal results) is false when the graph changes between two computations; proved for unchanging graphs, and that every result is the set of some moment when no permissions change."
  },
  {
   "property": "C86",
   "status": "proved",
   "theorems": [
    "Verif.Conf.C86_acyclic",
    "Verif.Conf.C86_kept",
    "Verif.Conf.C86_only",
    "Verif.Conf.C86_opposite"
   ],
   "note": ""
  },
  {
   "property": "C87",
   "status": "partial",
   "theorems": [
    "Verif.Conf.C87_serial_partial",
    "Verif.Conf.C87_quiet",
    "Verif.Conf.C87_alone",
    "Verif.Conf.C87_counterexample",
    "Verif.Conf.C87_full_false"
   ],
   "note": "C87_full is false because RemovePrincipalRole takes no lock; proved for the calls with one write-locked section (LCall.Guarded). Resolutions (two sections), SetDefaultTenant, GetRole and SetExpiry are covered alone only; decisions are not covered."
  },
  {
   "property": "C88",
   "status": "partial",
   "theorems": [
    "Verif.TC.C88_sound",
    "Verif.TC.C88_safe",
    "Verif.TC.C88_good",
    "Verif.TC.C88_serial_partial",
    "Verif.TC.C88_sequential_partial",
    "Verif.TC.C88_apart_alone",
    "Verif.TC.C88_lost",
    "Verif.TC.C88_counterexample",
    "Verif.TC.C88_full_false"
   ],
   "note": "C88_full is false when two goroutines need the same new node; proved otherwise (Apart). C88_lost: whenever two goroutines next insert rows that need the same new node, some order loses one."
  },
  {
   "property": "C89",
   "status": "partial",
   "theorems": [
    "Verif.TC.C89_sound",
    "Verif.TC.C89_complete",
    "Verif.TC.C89_readers",
    "Verif.TC.C89_exact_partial",
    "Verif.TC.C89_panic_counterexample",
    "Verif.TC.C89_nil_counterexample",
    "Verif.TC.C89_wrong_counterexample",
    "Verif.TC.C89_full_false",
    "Verif.TC.C89_crash",
    "Verif.TC.C89_nil"
   ],
   "note": "C89_full is false in three ways; C89_crash and C89_nil: the first two are reachable whenever one goroutine next inserts a row of a new identity and another next searches; proved while rows are only replaced (Replaces) and for filters that look at the key only (Query.Fair)."
  },
  {
   "property": "C90",
   "status": "partial",
   "theorems": [
    "Verif.RC.C90_registry",
    "Verif.RC.C90_agree_partial",
    "Verif.RC.C90_alone",
    "Verif.RC.C90_agree_exact",
    "Verif.RC.C90_exact",
    "Verif.RC.C90_counterexample",
    "Verif.RC.C90_full_false"
   ],
   "note": "C90_full is false for an id that two goroutines register first; proved otherwise (Apart). C90_exact says exactly when callers can disagree (Conflict)."
  },
  {
   "property": "C91",
   "status": "partial",
   "theorems": [
    "Verif.GC.C91_kept",
    "Verif.GC.C91_granted_partial",
    "Verif.GC.C91_stays_partial",
    "Verif.GC.C91_only",
    "Verif.GC.C91_alone",
    "Verif.GC.C91_lost",
    "Verif.GC.C91_counterexample",
    "Verif.GC.C91_full_false"
   ],
   "note": "C91_full is false for a group that two goroutines create; proved otherwise (Calm). C91_lost: whenever two goroutines next grant in a group the role lacks, some order loses a grant."
  },
  {
   "property": "C92",
   "status": "partial",
   "theorems": [
    "Verif.GC.C92_locked_partial",
    "Verif.GC.C92_groups_partial",
    "Verif.GC.C92_passed",
    "Verif.GC.C92_lost",
    "Verif.GC.C92_counterexample",
    "Verif.GC.C92_full_false"
   ],
   "note": "C92_full is false for a call that has passed the check of the lock; proved otherwise (Still, Private). C92_passed and C92_lost: the hypothesis cannot be dropped, whatever the roles and the calls."
  },
  {
   "property": "C93",
   "status": "proved",
   "theorems": [
    "Verif.TC.C93_trie_moves",
    "Verif.TC.C93_trie_ends",
    "Verif.TC.C93_trie_returns",
    "Verif.RC.C93_registry_moves",
    "Verif.RC.C93_registry_ends",
    "Verif.RC.C93_registry_returns",
    "Verif.GC.C93_role_moves",
    "Verif.GC.C93_role_ends",
    "Verif.GC.C93_role_returns"
   ],
   "note": "Filters are assumed to return or panic (Answers), the objects named by calls on roles to exist (Call.Named). The locks inside the concurrent map are not modelled: one Get, Set or Values is one step."
  },
  {
   "property": "C94",
   "status": "proved",
   "theorems": [
    "Verif.Dag.C94_newRole",
    "Verif.Dag.C94_addPermission",
    "Verif.Dag.C94_removePermission",
    "Verif.Dag.C94_addRole",
    "Verif.Dag.C94_addChildRole",
    "Verif.V2.C94_newAuthorizer",
    "Verif.V2.C94_addRoles",
    "Verif.V2.C94_addRole",
    "Verif.V2.C94_addChildRole",
    "Verif.V2.C94_setDefaultTenant",
    "Verif.V2.C94_request",
    "Verif.V2.C94_reachable"
   ],
   "note": ""
  },
  {
   "property": "C95",
   "status": "proved",
   "theorems": [
    "Verif.V2.C95_standing",
    "Verif.V2.C95_authorize",
    "Verif.V2.C95_can",
    "Verif.V2.C95_revoked",
    "Verif.V2.C95_unassigned",
    "Verif.V2.C95_example"
   ],
   "note": "Assignments are followed through the history by the number of the object; only the expiry of an object changes."
  },
  {
   "property": "C96",
   "status": "partial",
   "theorems": [
    "Verif.V2.C96_sound",
    "Verif.V2.C96_partial",
    "Verif.V2.C96_counterexample",
    "Verif.V2.C96_full_false"
   ],
   "note": "C96_full is false for histories with Can (role names in the cache); proved without."
  },
  {
   "property": "C97",
   "status": "partial",
   "theorems": [
    "Verif.V1.C97_returns_partial",
    "Verif.V1.C97_panics",
    "Verif.RV.C97_panics_exact",
    "Verif.V1.C97_cycle",
    "Verif.V1.C97_panic_counterexample",
    "Verif.V1.C97_cycle_counterexample",
    "Verif.V1.C97_full_false",
    "Verif.V1.C97_example"
   ],
   "note": "C97_full is false for tenants that are not registered and for roles that are their own descendants; proved under Answers. C97_panics_exact says exactly which requests panic."
  },
  {
   "property": "C98",
   "status": "proved",
   "theorems": [
    "Verif.V1.C98_call",
    "Verif.V1.C98_histories",
    "Verif.V1.C98_answers",
    "Verif.V1.C98_returns",
    "Verif.V1.C98_decisions",
    "Verif.V1.C98_example"
   ],
   "note": ""
  },
  {
   "property": "C99",
   "status": "proved",
   "theorems": [
    "Verif.C99_row",
    "Verif.C99_access",
    "Verif.C99_nothing_given",
    "Verif.C99_role"
   ],
   "note": "Requests with an activity and only one of namespace and scope may use roles given to others (C31); C99_role is about requests with both."
  },
  {
   "property": "C100",
   "status": "proved",
   "theorems": [
    "Verif.C100_granted",
    "Verif.C100_activity",
    "Verif.C100_nothing_listed"
   ],
   "note": ""
  },
  {
   "property": "C101",
   "status": "partial",
   "theorems": [
    "Verif.V1.C101_row",
    "Verif.V1.C101_access_partial",
    "Verif.V1.C101_nothing_assigned",
    "Verif.V1.C101_counterexample",
    "Verif.V1.C101_full_false"
   ],
   "note": "C101_full is false for requests with only a tenant or only tenant, namespace and scope; proved for all others, counting assignments to principals named p_...."
  },
  {
   "property": "C102",
   "status": "proved",
   "theorems": [
    "Verif.V1.C102_activity",
    "Verif.V1.C102_nothing_listed"
   ],
   "note": ""
  },
  {
   "property": "C103",
   "status": "proved",
   "theorems": [
    "Verif.AC.C103_answers",
    "Verif.AC.C103_alone",
    "Verif.AC.C103_state",
    "Verif.AC.C103_returns",
    "Verif.AC.C103_wait_free"
   ],
   "note": "One access to one of the two caches is one step; reads of what nobody changes are part of it. The bound of the recursions is the same for all calls."
  },
  {
   "property": "C104",
   "status": "partial",
   "theorems": [
    "Verif.AC.C104_cached_partial",
    "Verif.AC.C104_uniform_partial",
    "Verif.C104_settled_partial",
    "Verif.AC.C104_counterexample",
    "Verif.AC.C104_full_false"
   ],
   "note": "C104_full is false where C25 is (rows with and without ManageDescendants) and nothing is cached yet; proved when the tenants are cached, and when the answer does not depend on the order, for which C116 gives the exact condition."
  },
  {
   "property": "C105",
   "status": "partial",
   "theorems": [
    "Verif.VM.C105_exact",
    "Verif.VM.C105_stored_partial",
    "Verif.VM.C105_only",
    "Verif.VM.C105_counterexample",
    "Verif.VM.C105_full_false"
   ],
   "note": "C105_full is false; C105_exact says for which calls a race can be reached."
  },
  {
   "property": "C106",
   "status": "partial",
   "theorems": [
    "Verif.C106_exact",
    "Verif.C106_text",
    "Verif.C106_state_partial",
    "Verif.C106_counterexample",
    "Verif.C106_full_false"
   ],
   "note": "C106_full is false for ids that are not UTF-8; C106_exact says which rows have the same text. Integers stand for all other dynamic types."
  },
  {
   "property": "C107",
   "status": "partial",
   "theorems": [
    "Verif.C107_one_byte",
    "Verif.C107_four_bytes",
    "Verif.C107_common_end",
    "Verif.C107_counterexample",
    "Verif.C107_full_false"
   ],
   "note": "C107_full is false by counting; proved for strings that differ in at most four neighbouring bytes."
  },
  {
   "property": "C108",
   "status": "partial",
   "theorems": [
    "Verif.TC.C108_exact",
    "Verif.TC.C108_only",
    "Verif.TC.C108_race",
    "Verif.TC.C108_apart_partial",
    "Verif.TC.C108_counterexample",
    "Verif.TC.C108_full_false"
   ],
   "note": "C108_full is false; C108_exact says for which calls a race can be reached (searches of all matching rows; C108_only also covers First)."
  },
  {
   "property": "C109",
   "status": "partial",
   "theorems": [
    "Verif.GC.C109_exact",
    "Verif.GC.C109_quiet_partial",
    "Verif.GC.C109_counterexample",
    "Verif.GC.C109_full_false"
   ],
   "note": "C109_full is false; C109_exact says for which calls a race can be reached."
  },
  {
   "property": "C110",
   "status": "partial",
   "theorems": [
    "Verif.MM.C110_alone_partial",
    "Verif.MM.C110_counterexample",
    "Verif.MM.C110_full_false",
    "Verif.MM.C110_made",
    "Verif.MM.C110_made_alone_partial"
   ],
   "note": "C110_full is false: a tenant added to a second manager leaves the first one without its later rows. Proved for managers that share no tenants."
  },
  {
   "property": "C111",
   "status": "partial",
   "theorems": [
    "Verif.MM.C111_manager",
    "Verif.MM.C111_rows_partial",
    "Verif.MM.C111_descendants",
    "Verif.MM.C111_counterexample",
    "Verif.MM.C111_full_false",
    "Verif.MM.C111_made_manager",
    "Verif.MM.C111_made_rows_partial"
   ],
   "note": "C111_full is false; proved: the row is stored in the manager of the last AddTenant and in no other."
  },
  {
   "property": "C112",
   "status": "partial",
   "theorems": [
    "Verif.NC.C112_one_at_a_time_partial",
    "Verif.NC.C112_defaults_set",
    "Verif.NC.C112_no_descendants",
    "Verif.NC.C112_alone",
    "Verif.NC.C112_no_crash",
    "Verif.NC.C112_recorded",
    "Verif.NC.C112_full_false"
   ],
   "note": "C112_full is false: a namespace set on the parent while AddDescendant runs gives the descendant the row of the old one and the new one as default. Proved when no default namespace is changed while a descendant is being added to its tenant and the descendants of a tenant have different ids. Rows are compared as collections, registered objects by id (C90); C112_alone (a call that is not interrupted) compares the whole state."
  },
  {
   "property": "C113",
   "status": "partial",
   "theorems": [
    "Verif.NC.C113_exact",
    "Verif.NC.C113_apart_partial",
    "Verif.NC.C113_manager",
    "Verif.NC.C113_counterexample",
    "Verif.NC.C113_full_false"
   ],
   "note": "C113_full is false; C113_exact says between which calls a race can be reached."
  },
  {
   "property": "C114",
   "status": "proved",
   "theorems": [
    "Verif.V2.C114_v2_determined",
    "Verif.V2.C114_v2_tests",
    "Verif.V2.C114_v2_empty",
    "Verif.V2.C114_v2_example",
    "Verif.V1.C114_v1_authorize",
    "Verif.V1.C114_v1_tenant",
    "Verif.V1.C114_v1_scopes",
    "Verif.V1.C114_v1_all",
    "Verif.AC.C114_main_granted",
    "Verif.AC.C114_main_answered",
    "Verif.C114_trie"
   ],
   "note": "The setups are closed terms evaluated by the kernel for one order; the theorems extend the answers to all orders, clocks and interleavings. The benchmarks and the README (which shows an older interface) are not covered."
  },
  {
   "property": "C115",
   "status": "proved",
   "theorems": [
    "Verif.C115_search_order",
    "Verif.C115_first"
   ],
   "note": "Both directions: every returned list is so arranged, and every list so arranged is returned in some map order."
  },
  {
   "property": "C116",
   "status": "proved",
   "theorems": [
    "Verif.C116_sometimes",
    "Verif.C116_always",
    "Verif.C116_may_allow",
    "Verif.C116_must_allow",
    "Verif.C116_one_answer",
    "Verif.C116_example",
    "Verif.C116_shadowed"
   ],
   "note": "For a principal whose tenants are not cached yet (C33 otherwise), in states where the call returns in every order for the given bound (C27_C28_returns), links lead to registered tenants and cached lists of descendants are right."
  },
  {
   "property": "C117",
   "status": "partial",
   "theorems": [
    "Verif.AD.C117_full_false",
    "Verif.AD.C117_counterexample",
    "Verif.AD.C117_replaced",
    "Verif.AD.C117_between_partial",
    "Verif.AD.C117_moment_partial",
    "Verif.AD.C117_cases",
    "Verif.AD.C117_alone",
    "Verif.AD.C117_depth",
    "Verif.AD.C117_histories"
   ],
   "note": "The other calls are one step each (insertions that are interrupted: C88, C89; tenant calls: C112). The partial theorems need that no step replaces a stored row by another with the same values in order; C117_moment_partial also that the tenants of the principal were cached before the goroutines began, which may be any moment when no goroutine is in a call."
  },
  {
   "property": "C118",
   "status": "proved",
   "theorems": [
    "Verif.RP.C118_recovered",
    "Verif.RP.C118_decides",
    "Verif.RP.C118_without",
    "Verif.RP.C118_panics",
    "Verif.RP.C118_nothing",
    "Verif.RP.C118_prefix",
    "Verif.RP.C118_asked",
    "Verif.RP.C118_link",
    "Verif.RP.C118_attributes",
    "Verif.RP.C118_roles",
    "Verif.RP.C118_cases",
    "Verif.RP.C118_when",
    "Verif.RP.C118_when_asked",
    "Verif.RP.C118_when_nil",
    "Verif.RP.C118_when_cases",
    "Verif.RP.C118_when_decides",
    "Verif.RP.C118_when_authorize",
    "Verif.RP.C118_when_strings",
    "Verif.RP.C118_when_authorize_cases"
   ],
   "note": "One goroutine; objects made by the constructors; running out of stack cannot be recovered from. C118_without and C118_panics tie the description with pointers to the sequential one; C118_when, C118_when_asked and C118_when_authorize say exactly which calls panic (the last for rows whose roles are strings, as all are that do not come from AddData)."
  },
  {
   "property": "C119",
   "status": "partial",
   "theorems": [
    "Verif.RQ.C119_decides",
    "Verif.RQ.C119_without",
    "Verif.RQ.C119_panics",
    "Verif.RQ.C119_when",
    "Verif.RQ.C119_when_authorize",
    "Verif.RQ.C119_when_can",
    "Verif.RQ.C119_when_cases",
    "Verif.RQ.C119_nothing",
    "Verif.RQ.C119_prefix",
    "Verif.RQ.C119_assign",
    "Verif.RQ.C119_asked",
    "Verif.RQ.C119_can_asked",
    "Verif.RQ.C119_denied",
    "Verif.RQ.C119_forever",
    "Verif.RQ.C119_cleared",
    "Verif.RQ.C119_answers_partial",
    "Verif.RQ.C119_counterexample",
    "Verif.RQ.C119_full_false",
    "Verif.RQ.C119_cases"
   ],
   "note": "C119_full is false: a nil pointer passed to AddPrincipalRole stays among the assignments. C119_answers_partial covers histories without that; C119_denied, C119_forever and C119_cleared say what happens after it. One goroutine; objects made by the constructors; running out of stack cannot be recovered from."
  },
  {
   "property": "C120",
   "status": "proved",
   "theorems": [
    "Verif.RV.C120_recovered",
    "Verif.RV.C120_keeps",
    "Verif.RV.C120_without",
    "Verif.RV.C120_panics",
    "Verif.RV.C120_nothing",
    "Verif.RV.C120_prefix",
    "Verif.RV.C120_attributes",
    "Verif.RV.C120_roles",
    "Verif.RV.C120_scope",
    "Verif.RV.C120_asked",
    "Verif.RV.C120_cases",
    "Verif.RV.C120_given",
    "Verif.RV.C120_when",
    "Verif.RV.C120_when_cases"
   ],
   "note": "C120_given is the history in which a call that panics gives access. One goroutine; objects made by the constructors; running out of stack cannot be recovered from."
  },
  {
   "property": "C121",
   "status": "proved",
   "theorems": [
    "Verif.V2.C121_v2",
    "Verif.V2.C121_v2_meant",
    "Verif.V1.C121_v1",
    "Verif.V1.C121_v1_meant",
    "Verif.AC.C121_main_granted",
    "Verif.AC.C121_main_answered",
    "Verif.C121_trie"
   ],
   "note": "Concrete set-ups, carried to all orders and repetitions by the general theorems C74, C98, C103 and C07."
  },
  {
   "property": "C122",
   "status": "partial",
   "theorems": [
    "Verif.C122_counted",
    "Verif.C122_at_most",
    "Verif.C122_refused",
    "Verif.C122_chain",
    "Verif.C122_flat_partial",
    "Verif.C122_height_partial",
    "Verif.C122_full_false"
   ],
   "note": "The polynomial bound is false: C122_chain. Calls of Has are counted, by a copy of the model with a counter proved to give the same answers; calls of GetDescendantRoles, MatchResource and of the maps are not."
  },
  {
   "property": "C123",
   "status": "partial",
   "theorems": [
    "Verif.C123_roles",
    "Verif.C123_roles_length",
    "Verif.C123_roles_nodup",
    "Verif.C123_tenants",
    "Verif.C123_v1_tenants",
    "Verif.C123_tree_partial",
    "Verif.C123_counterexample",
    "Verif.C123_full_false"
   ],
   "note": "Repetitions exist: C123_counterexample. The exact number is proved."
  },
  {
   "property": "C124",
   "status": "partial",
   "theorems": [
    "Verif.C124_times",
    "Verif.C124_chain",
    "Verif.C124_flat_partial",
    "Verif.C124_full_false"
   ],
   "note": "Repetitions exist: C124_chain. The exact number is proved."
  },
  {
   "property": "C125",
   "status": "proved",
   "theorems": [
    "Verif.VMM.C125_points",
    "Verif.VMM.C125_reaches",
    "Verif.VMM.C125_alone",
    "Verif.VMM.C125_others",
    "Verif.VMM.C125_row",
    "Verif.VMM.C125_access",
    "Verif.VMM.C125_exact",
    "Verif.VMM.C125_exact_activity",
    "Verif.VMM.C125_everywhere_false"
   ],
   "note": "Nil pointers are not modelled here (C120 has them for one manager)."
  },
  {
   "property": "C126",
   "status": "partial",
   "theorems": [
    "Verif.VMM.C126_partial",
    "Verif.VMM.C126_assignments",
    "Verif.VMM.C126_counterexample",
    "Verif.VMM.C126_full_false"
   ],
   "note": "The full statement is false: C126_counterexample. A call on a role or group counts if it concerns (C131) a role registered with the manager."
  },
  {
   "property": "C127",
   "status": "proved",
   "theorems": [
    "Verif.VMA.C127_exact",
    "Verif.VMA.C127_others",
    "Verif.VMA.C127_decisions",
    "Verif.VMA.C127_alone",
    "Verif.VMA.C127_grants"
   ],
   "note": "C127_grants is under the hypotheses of C49_exact_partial (no expiry during the call, tenant ids that identify tenants). Nil pointers are not modelled here (C119 has them for one authorizer)."
  },
  {
   "property": "C128",
   "status": "partial",
   "theorems": [
    "Verif.VMA.C128_registries",
    "Verif.VMA.C128_partial",
    "Verif.VMA.C128_histories_partial",
    "Verif.VMA.C128_counterexample",
    "Verif.VMA.C128_full_false"
   ],
   "note": "The full statement is false: C128_counterexample. The condition on the cache is that of C47."
  },
  {
   "property": "C129",
   "status": "proved",
   "theorems": [
    "Verif.C129_reads",
    "Verif.C129_rounds",
    "Verif.C129_returns",
    "Verif.C129_hangs"
   ],
   "note": "Bytes read are counted; len is free. Which calls return is C03."
  },
  {
   "property": "C130",
   "status": "proved",
   "theorems": [
    "Verif.V2.C130_counted",
    "Verif.V2.C130_authorize",
    "Verif.V2.C130_can",
    "Verif.V2.C130_named",
    "Verif.V2.C130_roles"
   ],
   "note": "Calls of traverse and assignments read by it are counted, by a copy of the model with counters proved to give the same answers; the matching of permissions and findPrincipalTenants are not."
  },
  {
   "property": "C131",
   "status": "proved",
   "theorems": [
    "Verif.C131_frame",
    "Verif.C131_new_lock",
    "Verif.C131_unshared_false",
    "Verif.C131_root",
    "Verif.C131_v1"
   ],
   "note": "Which calls concern a role is RoleOp.Concerns, evaluated when the call is made."
  },
  {
   "property": "C132",
   "status": "proved",
   "theorems": [
    "Verif.C132_search",
    "Verif.C132_first",
    "Verif.C132_bound",
    "Verif.C132_counted"
   ],
   "note": "The search with a log of its calls is a copy of the model, proved to return the same rows in the same order."
  },
  {
   "property": "C133",
   "status": "proved",
   "theorems": [
    "Verif.C133_counted",
    "Verif.C133_searches",
    "Verif.C133_bound",
    "Verif.C133_repeats"
   ],
   "note": "Counts searches; what each costs is C132. Walks through the tenant hierarchy and calls of Role.Has (C122) are counted elsewhere."
  },
  {
   "property": "C134",
   "status": "partial",
   "theorems": [
    "Verif.C134_counted",
    "Verif.C134_listing",
    "Verif.C134_calls",
    "Verif.C134_first",
    "Verif.C134_cached",
    "Verif.C134_once",
    "Verif.C134_dag",
    "Verif.C134_full_false",
    "Verif.C134_tree_partial",
    "Verif.C134_height_partial"
   ],
   "note": "The polynomial bound is false of the code (C134_dag, C134_full_false). It holds for hierarchies in which every tenant has one parent at most."
  },
  {
   "property": "C135",
   "status": "partial",
   "theorems": [
    "Verif.V2.C135_partial",
    "Verif.V2.C135_exact",
    "Verif.V2.C135_only",
    "Verif.V2.C135_can",
    "Verif.V2.C135_counterexample",
    "Verif.V2.C135_full_false"
   ],
   "note": "Full statement C135_full is false: permissions for the requested scope hide unscoped ones until they expire. Both calls are compared on the same state."
  },
  {
   "property": "C136",
   "status": "partial",
   "theorems": [
    "Verif.V2.C136_partial",
    "Verif.V2.C136_exact",
    "Verif.V2.C136_only",
    "Verif.V2.C136_can",
    "Verif.V2.C136_counterexample",
    "Verif.V2.C136_full_false"
   ],
   "note": "Full statement C136_full is false for the same reason."
  },
  {
   "property": "C137",
   "status": "partial",
   "theorems": [
    "Verif.V2.C137_partial",
    "Verif.V2.C137_exact",
    "Verif.V2.C137_only",
    "Verif.V2.C137_can",
    "Verif.V2.C137_counterexample",
    "Verif.V2.C137_full_false"
   ],
   "note": "Full statement C137_full is false for the same reason."
  },
  {
   "property": "C138",
   "status": "partial",
   "theorems": [
    "Verif.V2.C138_partial",
    "Verif.V2.C138_exact",
    "Verif.V2.C138_only",
    "Verif.V2.C138_can",
    "Verif.V2.C138_counterexample",
    "Verif.V2.C138_full_false"
   ],
   "note": "Full statement C138_full is false for the same reason."
  },
  {
   "property": "C139",
   "status": "partial",
   "theorems": [
    "Verif.frac64_sane",
    "Verif.C139_parse",
    "Verif.C139_sum",
    "Verif.C139_close",
    "Verif.C139_bytes",
    "Verif.C139_unitless",
    "Verif.C139_partial",
    "Verif.C139_exact",
    "Verif.C139_noop",
    "Verif.C139_counterexample",
    "Verif.C139_full_false"
   ],
   "note": "Full statement C139_full is false: errors of time.ParseDuration are dropped. time.ParseDuration is standard library and its source was not available here: the model is written from knowledge of it (Go 1.20 and later) and was not compared with it. Theorems hold for every rounding of fractions to at most one unit; frac64_sane shows that float64 arithmetic (Model/Float64.lean) is one."
  },
  {
   "property": "C140",
   "status": "proved",
   "theorems": [
    "Verif.Mgr.C140_entries",
    "Verif.Mgr.C140_bounded",
    "Verif.Mgr.C140_asked",
    "Verif.V2.C140_v2_entries",
    "Verif.V2.C140_v2_bounded",
    "Verif.V2.C140_v2_asked"
   ],
   "note": "Counts what stays in the state (the records written to the logger of v2 leave the process). Space used while a call runs is not counted. Decisions of v1 leave the state unchanged in the model."
  },
  {
   "property": "C141",
   "status": "proved",
   "theorems": [
    "Verif.Mgr.C141_opaque",
    "Verif.Mgr.C141_outcome",
    "Verif.Mgr.C141_answers",
    "Verif.Mgr.C141_kinds"
   ],
   "note": "Root package. Map orders are given by indices (Ord.byIndex), under the renamed stamp of each loop, so that the two runs visit corresponding elements; exists_sameOrders shows that every choice has a corresponding one. Attributes and activities are texts that are matched, and are not renamed."
  },
  {
   "property": "C142",
   "status": "partial",
   "theorems": [
    "Verif.V2.C142_partial",
    "Verif.V2.C142_authorize",
    "Verif.V2.C142_can",
    "Verif.V2.C142_outcome",
    "Verif.V2.C142_full_false"
   ],
   "note": "v2. The full statement (C142_full) is false (C142_full_false): role names have a meaning once Can has put them in the cache of permissions. Proved for all other ids, and for all ids where a history uses only one kind of decision."
  },
  {
   "property": "C143",
   "status": "partial",
   "theorems": [
    "Verif.V1.C143_partial",
    "Verif.V1.C143_queries",
    "Verif.V1.C143_full_false",
    "Verif.V1.C143_old_false"
   ],
   "note": "v1. The full statement (C143_full) is false (C143_full_false, C143_old_false): ids with an underscore. Proved for all other ids of assignments; ids that no assignment uses may contain one."
  },
  {
   "property": "C144",
   "status": "proved",
   "theorems": [
    "Verif.C144",
    "Verif.C144_apart"
   ],
   "note": "Root package. EqualButLog leaves out a ghost of the model (the list of all rows ever inserted), which no function reads (Rep.run_lg). Results of the repeated call are not compared, only states and later outcomes."
  },
  {
   "property": "C145",
   "status": "partial",
   "theorems": [
    "Verif.C145_partial",
    "Verif.C145_thrice",
    "Verif.C145_counterexample",
    "Verif.C145_full_false"
   ],
   "note": "v1. The full statement (C145_full) is false (C145_full_false): AssignScopesToPrincipal. EqualButLog1 leaves out a ghost of the model (the list of all assignments made), which no function reads (Rep1.run_lg). Results of the repeated call are not compared, only states and later outcomes."
  },
  {
   "property": "C146",
   "status": "partial",
   "theorems": [
    "Verif.C146_partial",
    "Verif.C146_removed",
    "Verif.C146_now",
    "Verif.C146_counterexample",
    "Verif.C146_full_false"
   ],
   "note": "v2. The full statement (C146_full) is false (C146_full_false): AddChildRole. Every call but AddChildRole and AddPrincipalRole leaves exactly the same state when repeated (with the same time, for the expiry); for these two the decisions right afterwards are the same (C146_now)."
  },
  {
   "property": "C147",
   "status": "partial",
   "theorems": [
    "Verif.C147_state",
    "Verif.C147_history",
    "Verif.C147_moment",
    "Verif.C147_named_partial",
    "Verif.C147_after_partial",
    "Verif.C147_counterexample",
    "Verif.C147_full_false"
   ],
   "note": "Root package. The full statement (C147_full) is false (C147_full_false). C147_history gives the decision by the history of calls; its third part is exact up to the order of maps (MayInclude, MustInclude, C116) if linked tenants are registered and no kept list of descendants was out of date at the look-up."
  },
  {
   "property": "C148",
   "status": "partial",
   "theorems": [
    "Verif.V2.C148_state",
    "Verif.V2.C148_perms",
    "Verif.V2.C148_roles",
    "Verif.V2.C148_authorize_partial",
    "Verif.V2.C148_can_partial",
    "Verif.V2.C148_counterexample",
    "Verif.V2.C148_full_false"
   ],
   "note": "v2. The full statement (C148_full) is false (C148_full_false). C148_perms and C148_roles give what C49 and C54 say a decision uses (RolePerm, RoleBelow) by the history of calls."
  },
  {
   "property": "C149",
   "status": "partial",
   "theorems": [
    "Verif.C149_state",
    "Verif.C149_partial",
    "Verif.C149_same_fields",
    "Verif.C149_default",
    "Verif.C149_counterexample",
    "Verif.C149_full_false"
   ],
   "note": "Root package. The full statement (C149_full) is false (C149_full_false): a namespace and a scope with one id. C149_same_fields says that only rows with texts in different fields can clash. SettledAnswer leaves out requests whose answer depends on the order of maps already (C116)."
  },
  {
   "property": "C150",
   "status": "partial",
   "theorems": [
    "Verif.V2.C150_block",
    "Verif.V2.C150_partial",
    "Verif.V2.C150_accepted",
    "Verif.V2.C150_none_refused",
    "Verif.V2.C150_completes",
    "Verif.V2.C150_counterexample",
    "Verif.V2.C150_full_false"
   ],
   "note": "v2. The full statement (C150_full) is false (C150_full_false): shared children count as a cycle when linked in one order and not in the other."
  },
  {
   "property": "C151",
   "status": "partial",
   "theorems": [
    "Verif.V1.C151_partial",
    "Verif.V1.C151_others_partial",
    "Verif.V1.C151_example",
    "Verif.V1.C151_others_example",
    "Verif.V1.C151_underscore",
    "Verif.V1.C151_counterexample",
    "Verif.V1.C151_full_false"
   ],
   "note": "v1. The full statement (C151_full) is false (C151_full_false): AssignScopesToPrincipal before the first role of the principal; for ids with an underscore also for grants for different principals (C151_underscore). C151_partial: all orders of grants that do not go by assignments made in the block; C151_others_partial: all grants, all orders that keep the order for each principal."
  },
  {
   "property": "C152",
   "status": "partial",
   "theorems": [
    "Verif.V2.C152_state",
    "Verif.V2.C152_partial",
    "Verif.V2.C152_example",
    "Verif.V2.C152_counterexample",
    "Verif.V2.C152_full_false"
   ],
   "note": "v2. The full statement (C152_full) is false (C152_full_false): an assignment, permission or expiry of the kind that was there already goes too. C152_state is exact for the three pairs of calls, after any history that left no nil entry (C48)."
  },
  {
   "property": "C153",
   "status": "partial",
   "theorems": [
    "Verif.V2.C153_assignments",
    "Verif.V2.C153_permissions",
    "Verif.V2.C153_partial",
    "Verif.V2.C153_returns_partial",
    "Verif.V2.C153_panics",
    "Verif.V2.C153_example",
    "Verif.V2.C153_counterexample",
    "Verif.V2.C153_full_false"
   ],
   "note": "v2. The full statement (C153_full) is false (C153_full_false): the nil entries of C48. C153_assignments and C153_permissions give the state; C153_panics says which decisions panic if the assignments taken away are not the last ones. C153_returns_partial says when the calls return; it asks for enough stack afterwards and that the matcher hangs on no permission of the principal, so returning with the stack of before is not shown."
  },
  {
   "property": "C154",
   "status": "partial",
   "theorems": [
    "Verif.V2.C154_partial",
    "Verif.V2.C154_returns_partial",
    "Verif.V2.C154_second",
    "Verif.V2.C154_example",
    "Verif.V2.C154_returns_example",
    "Verif.V2.C154_counterexample",
    "Verif.V2.C154_twin",
    "Verif.V2.C154_full_false"
   ],
   "note": "v2. The full statement (C154_full) is false (C154_full_false): the second namespace of a tenant without default; C154_second says that then every request without namespace about that tenant is refused. C154_twin: registering a tenant with an id in use. AddChildTenant: C155. The answers are compared if both calls return; C154_returns_partial says when the later one does."
  },
  {
   "property": "C155",
   "status": "partial",
   "theorems": [
    "Verif.V2.C155_only",
    "Verif.V2.C155_partial",
    "Verif.V2.C155_exact",
    "Verif.V2.C155_can",
    "Verif.V2.C155_returns",
    "Verif.V2.C155_returns_example",
    "Verif.V2.C155_counterexample",
    "Verif.V2.C155_full_false"
   ],
   "note": "v2. The full statement (C155_full) is false (C155_full_false). C155_only and C155_exact say when a granted request is refused after the link (Hides); C155_counterexample also meets the hypotheses of C155_partial and C155_can. The answers are compared if both calls return; C155_returns says when the later one does."
  },
  {
   "property": "C156",
   "status": "proved",
   "theorems": [
    "Verif.V2.C156_aside",
    "Verif.V2.C156_returns",
    "Verif.V2.C156_state",
    "Verif.V2.C156_example"
   ],
   "note": "v2. Which objects are registered is taken at the time of the first call; such calls register nothing (C156_state). The answers are compared if both calls return; C156_returns says when they do (enough stack, no nil entry, no permission of the principal on which the matcher hangs)."
  }
 ]
}