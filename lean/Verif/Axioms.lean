import Lean
import Verif.Base
import Verif.Props.Match
import Verif.Props.Utils
import Verif.Props.Trie
import Verif.Props.Role
import Verif.Props.Manager
import Verif.Props.Authorize
import Verif.Props.Grants
import Verif.Props.V1
import Verif.Props.V1Assign
import Verif.Props.V1Getters
import Verif.Props.V1Setup
import Verif.Props.V2
import Verif.Props.V2Remove
import Verif.Props.V2Cache
import Verif.Model.V2Pool
import Verif.Props.V2Pool
import Verif.Props.Getters
import Verif.Props.Reports
import Verif.Props.RoleOps
import Verif.Props.Text
import Verif.Props.Setup
import Verif.Props.V2Setup
import Verif.Props.V2Isolation
import Verif.Props.Isolation
import Verif.Props.V1Isolation
import Verif.Props.V1Pool
import Verif.Props.Bulk
import Verif.Props.Audit
import Verif.Props.Serialize
import Verif.Props.Keep
import Verif.Props.V1Keep
import Verif.Props.V2Locks
import Verif.Props.V2Conc
import Verif.Props.V2Serial
import Verif.Props.TrieConc
import Verif.Props.RegConc
import Verif.Props.RoleConc
import Verif.Props.ConcEnd
import Verif.Props.V2RoleSetup
import Verif.Props.V2Origin
import Verif.Props.V1Returns
import Verif.Props.V1Orders
import Verif.Props.Origin
import Verif.Props.V1Origin
import Verif.Props.AuthConc
import Verif.Props.V1Map
import Verif.Props.Json
import Verif.Props.TrieRace
import Verif.Props.RoleRace
import Verif.Props.Managers
import Verif.Props.RegExact
import Verif.Props.RoleLost
import Verif.Props.TrieLost
import Verif.Props.MatchExact
import Verif.Props.TenantConc
import Verif.Model.TenantRace
import Verif.Props.TenantRace
import Verif.Props.Examples
import Verif.Props.SearchOrder
import Verif.Props.ImplicitOrder
import Verif.Props.AuthDuring
import Verif.Props.Recover
import Verif.Props.V2Recover
import Verif.Props.V1Recover
import Verif.Props.Height
import Verif.Props.ManagersMade
import Verif.Props.Exact
import Verif.Props.RecoverWhen
import Verif.Props.V2RecoverWhen
import Verif.Props.V1RecoverWhen
import Verif.Props.AuthorizeWhen
import Verif.Props.Bench
import Verif.Props.Cost
import Verif.Props.Repeats
import Verif.Props.V1More
import Verif.Props.V2More
import Verif.Props.V1Managers
import Verif.Props.V2Authorizers
import Verif.Props.MatchCost
import Verif.Props.V2Cost
import Verif.Props.Locked
import Verif.Props.Borrowed
import Verif.Props.RoleFrame
import Verif.Props.RoleFrameMgr
import Verif.Props.TrieCost
import Verif.Props.AuthCost
import Verif.Props.TenantCost
import Verif.Props.RoleLate
import Verif.Props.V2Careless
import Verif.Props.V2Revoke
import Verif.Props.V2Duration
import Verif.Props.V1Once
import Verif.Props.TrieNil
import Verif.Props.Memory
import Verif.Props.V2Memory
import Verif.Props.Opaque
import Verif.Props.V2Opaque
import Verif.Props.V1Opaque
import Verif.Props.Repeat
import Verif.Props.V1Repeat
import Verif.Props.V2Repeat
import Verif.Props.GrantExact
import Verif.Props.Asking
import Verif.Props.V2Asking
import Verif.Props.GrantOrder
import Verif.Props.V2GrantOrder
import Verif.Props.V1GrantOrder
import Verif.Props.V2Undo
import Verif.Props.V2Regrant
import Verif.Props.V2Wider
import Verif.Props.V2Link
import Verif.Props.V2Aside

/-!
# The foundations each property theorem rests on

`rests_on [..] : names` fails the build unless every named theorem depends on exactly the listed principles of the Lean
kernel (as `#print axioms` reports them).  Every theorem of MANIFEST.json is listed once.
-/

namespace Verif
open Lean Elab Command

/-- Check the principles behind a list of theorems. -/
elab "rests_on " "[" ps:ident,* "]" ":" names:ident* : command => do
  let want := ps.getElems.map (·.getId) |>.qsort Name.lt
  for n in names do
    let c ← liftCoreM (realizeGlobalConstNoOverloadWithInfo n)
    let got := (← liftCoreM (collectAxioms c)).qsort Name.lt
    unless got == want do
      throwErrorAt n "{c} rests on {got}"

end Verif

rests_on [propext, Classical.choice, Quot.sound] :
  Verif.C01_literal Verif.matchResource_run Verif.matchResource_diverge_run Verif.C02_param_language
  Verif.matchResource_true_iff Verif.matchResource_false_iff Verif.matchResource_no_panic Verif.C03_counterexample
  Verif.C03_full_false Verif.C03_diverges_iff_partial Verif.C03_terminates_partial Verif.C03_pattern
  Verif.C04_trailing_star Verif.C05_action_partial Verif.C05_exact Verif.C06_segments Verif.C07_search
  Verif.C07_search_default Verif.C07_nodup Verif.C08_first Verif.C08_first_default Verif.C09_loss_iff_partial
  Verif.C09_no_loss_partial Verif.C10_order Verif.C10_reinsert Verif.C11_default_search Verif.C12_compact
  Verif.C16_has Verif.C16_order_independent Verif.C17_terminates Verif.C17_cycle_has Verif.C18_has_partial
  Verif.C18_full_false Verif.C18_exact Verif.C20_step Verif.C20_frozen_partial Verif.C20_full_false
  Verif.C22_first_wins Verif.C22_count Verif.C22_lists Verif.C22_never_forgets Verif.C24_implicit_sound
  Verif.C24_cached Verif.C25_implicit_exact_partial Verif.C25_in_order Verif.C25_full_false Verif.C26_denies_unknown
  Verif.C26_no_tenant Verif.C27_no_activity Verif.authorize_exact Verif.C27_C28_returns Verif.C28_activity
  Verif.C29_isolated_partial Verif.C29_tenant_only Verif.C29_any_tenant Verif.C29_full_false
  Verif.C30_role_grant_partial Verif.C30_always_denied Verif.C30_full_false Verif.C31_own_role_partial
  Verif.C31_borrowed Verif.C31_exact Verif.C31_everyone Verif.C32_grant_takes_effect_partial Verif.C32_denied_for_ever
  Verif.C32_kept Verif.C32_exact Verif.C33_only_caches Verif.C33_repeatable Verif.C33_cached_deterministic
  Verif.C34_incomplete Verif.V1.C36_decodes Verif.V1.C37_returns Verif.V1.C40_exact Verif.V1.C40_roles_of_tenant
  Verif.V1.C41_exact Verif.V1.C42_partial Verif.V1.C42_empty Verif.C44_acyclic Verif.Dag.C45_exact
  Verif.Dag.C45_terminates Verif.V2.C49_exact_partial Verif.V2.C49_sound Verif.V2.C49_frame Verif.V2.C49_returns
  Verif.V2.C50_place Verif.V2.C50_namespace Verif.V2.C50_scope Verif.V2.C51_no_influence Verif.V2.C51_all_expired
  Verif.V2.C52_partial Verif.V2.C52_ignored Verif.V2.C53_partial Verif.V2.C53_exact Verif.V2.C55_resolution
  Verif.V2.C55_never_diverges Verif.V2.C55_can Verif.Dag.C58_sequence Verif.V2.C59_authorize Verif.V2.C59_can
  Verif.V2.C47_roles_partial Verif.V2.C47_histories_partial Verif.V2.C47_frozen Verif.V2.C47_full_false
  Verif.V2.C48_error Verif.V2.C48_frame Verif.V2.C48_exact_partial Verif.V2.C48_assigned_partial Verif.V2.C48_nil_iff
  Verif.V2.C48_panics Verif.V2.C48_index Verif.V2.C48_remove_all Verif.Pools.C57_undisturbed_partial
  Verif.Pools.C57_quiet_partial Verif.C57_exact_partial Verif.C57_can_exact_partial Verif.C57_authorize
  Verif.C57_calls_exist Verif.Pools.C57_worst Verif.C62_queries Verif.C62_own_tenants Verif.C62_wrapper
  Verif.C62_rolesByTenant Verif.C62_ids Verif.C63_report Verif.C63_times Verif.C63_full_false Verif.C63_once_partial
  Verif.C64_report Verif.C64_full_false Verif.C64_scopes_partial Verif.C67_toString Verif.C67_int_text
  Verif.C67_filterByFields Verif.C67_filterFunc Verif.C67_filters Verif.V1.C68_roles Verif.V1.C68_scopes
  Verif.V1.C68_tenantScopes Verif.V1.C68_permissions Verif.V1.C68_tenants Verif.V1.C68_once Verif.V1.C69_exact
  Verif.V1.C69_own_partial Verif.V1.C70_count Verif.C72_addDescendant Verif.C72_addDescendant_panic
  Verif.V2.C73_addChildTenant Verif.V2.C73_addTenants Verif.V2.C73_addPrincipalRole Verif.V2.C73_index
  Verif.V2.C73_index_removed Verif.V2.C74_authorize Verif.V2.C74_authorize_partial Verif.V2.C74_can_partial
  Verif.V2.C74_returns_partial Verif.C75_authorize Verif.C75_histories_partial Verif.V1.C76_authorize
  Verif.V1.C76_histories_partial Verif.V1.C77_allowedRoles Verif.V1.C77_stable_partial Verif.V1.C77_activity_partial
  Verif.V1.C77_complex_partial Verif.V1.C77_sequential Verif.C78_lookup Verif.C78_summary Verif.C78_text
  Verif.C78_implicitScopes Verif.C78_v1_lookup Verif.C79_status Verif.C80_exact Verif.C80_not_unique
  Verif.C81_keeps_partial Verif.V1.C82_activity_partial Verif.V1.C82_own Verif.V1.C82_lost
  Verif.V1.C82_activity_only_partial Verif.Conf.C83_no_deadlock Verif.Conf.C83_terminates Verif.Conf.C83_all_return
  Verif.Conf.C84_careless Verif.Conf.C85_results_partial Verif.Conf.C85_still_partial Verif.Conf.C86_acyclic
  Verif.Conf.C86_kept Verif.Conf.C86_only Verif.Conf.C86_opposite Verif.Conf.C87_serial_partial Verif.Conf.C87_quiet
  Verif.Conf.C87_alone Verif.Conf.C87_full_false Verif.TC.C88_sound Verif.TC.C88_safe Verif.TC.C88_good
  Verif.TC.C88_serial_partial Verif.TC.C88_sequential_partial Verif.TC.C88_lost Verif.TC.C89_sound
  Verif.TC.C89_complete Verif.TC.C89_readers Verif.TC.C89_exact_partial Verif.TC.C89_crash Verif.TC.C89_nil
  Verif.RC.C90_agree_exact Verif.RC.C90_exact Verif.GC.C92_passed Verif.GC.C92_lost Verif.TC.C93_trie_moves
  Verif.TC.C93_trie_ends Verif.TC.C93_trie_returns Verif.RC.C93_registry_ends Verif.RC.C93_registry_returns
  Verif.GC.C93_role_ends Verif.GC.C93_role_returns Verif.Dag.C94_addRole Verif.V2.C94_addRoles Verif.V2.C94_addRole
  Verif.V2.C94_reachable Verif.V2.C95_standing Verif.V2.C95_authorize Verif.V2.C95_can Verif.V2.C95_revoked
  Verif.V2.C95_unassigned Verif.V2.C96_sound Verif.V2.C96_partial Verif.V1.C97_returns_partial Verif.V1.C97_panics
  Verif.RV.C97_panics_exact Verif.V1.C97_cycle Verif.V1.C97_panic_counterexample Verif.V1.C97_cycle_counterexample
  Verif.V1.C97_full_false Verif.V1.C97_example Verif.V1.C98_call Verif.V1.C98_histories Verif.V1.C98_answers
  Verif.V1.C98_decisions Verif.V1.C98_example Verif.C99_row Verif.C99_access Verif.C99_nothing_given Verif.C99_role
  Verif.C100_granted Verif.C100_activity Verif.C100_nothing_listed Verif.V1.C101_access_partial
  Verif.V1.C101_nothing_assigned Verif.V1.C102_activity Verif.V1.C102_nothing_listed Verif.AC.C103_answers
  Verif.AC.C103_alone Verif.AC.C103_state Verif.AC.C103_returns Verif.AC.C103_wait_free Verif.AC.C104_cached_partial
  Verif.AC.C104_uniform_partial Verif.C104_settled_partial Verif.AC.C104_full_false Verif.C106_exact Verif.C106_text
  Verif.C106_state_partial Verif.C107_four_bytes Verif.C107_counterexample Verif.C107_full_false Verif.TC.C108_exact
  Verif.TC.C108_only Verif.TC.C108_race Verif.TC.C108_apart_partial Verif.TC.C108_counterexample
  Verif.TC.C108_full_false Verif.MM.C110_alone_partial Verif.MM.C110_made_alone_partial Verif.MM.C111_manager
  Verif.MM.C111_rows_partial Verif.MM.C111_descendants Verif.MM.C111_made_manager Verif.MM.C111_made_rows_partial
  Verif.NC.C112_one_at_a_time_partial Verif.NC.C112_defaults_set Verif.NC.C112_no_descendants Verif.NC.C112_full_false
  Verif.NC.C113_counterexample Verif.NC.C113_full_false Verif.V2.C114_v2_determined Verif.V2.C114_v2_tests
  Verif.V2.C114_v2_empty Verif.V2.C114_v2_example Verif.V1.C114_v1_authorize Verif.V1.C114_v1_tenant
  Verif.V1.C114_v1_scopes Verif.V1.C114_v1_all Verif.AC.C114_main_granted Verif.AC.C114_main_answered Verif.C114_trie
  Verif.C115_search_order Verif.C115_first Verif.C116_sometimes Verif.C116_always Verif.C116_may_allow
  Verif.C116_must_allow Verif.C116_one_answer Verif.C116_example Verif.AD.C117_full_false
  Verif.AD.C117_between_partial Verif.AD.C117_moment_partial Verif.AD.C117_alone Verif.AD.C117_depth
  Verif.AD.C117_histories Verif.RP.C118_recovered Verif.RP.C118_decides Verif.RP.C118_without Verif.RP.C118_panics
  Verif.RP.C118_prefix Verif.RP.C118_when Verif.RP.C118_when_asked Verif.RP.C118_when_decides
  Verif.RP.C118_when_authorize Verif.RP.C118_when_strings Verif.RQ.C119_decides Verif.RQ.C119_when
  Verif.RQ.C119_when_authorize Verif.RQ.C119_when_can Verif.RQ.C119_forever Verif.RQ.C119_cleared
  Verif.RQ.C119_answers_partial Verif.RQ.C119_full_false Verif.RV.C120_when Verif.V2.C121_v2 Verif.V2.C121_v2_meant
  Verif.V1.C121_v1 Verif.V1.C121_v1_meant Verif.AC.C121_main_granted Verif.AC.C121_main_answered Verif.C121_trie
  Verif.C122_chain Verif.C122_height_partial Verif.C122_full_false Verif.C123_roles Verif.C123_roles_nodup
  Verif.C123_tenants Verif.C123_v1_tenants Verif.C124_times Verif.C124_chain Verif.C124_flat_partial
  Verif.C124_full_false Verif.VMM.C125_points Verif.VMM.C125_reaches Verif.VMM.C125_alone Verif.VMM.C125_row
  Verif.VMM.C125_access Verif.VMM.C125_exact Verif.VMM.C125_exact_activity Verif.VMM.C126_partial
  Verif.VMM.C126_assignments Verif.VMA.C127_others Verif.VMA.C127_decisions Verif.VMA.C127_alone Verif.VMA.C127_grants
  Verif.VMA.C128_registries Verif.VMA.C128_partial Verif.VMA.C128_histories_partial Verif.C129_reads Verif.C129_rounds
  Verif.C129_returns Verif.C129_hangs Verif.V2.C130_authorize Verif.V2.C130_can Verif.V2.C130_named Verif.C131_root
  Verif.C131_v1 Verif.C132_search Verif.C132_first Verif.C133_counted Verif.C133_searches Verif.C133_bound
  Verif.C133_repeats Verif.C134_calls Verif.C134_first Verif.C134_once Verif.C134_dag Verif.C134_full_false
  Verif.C134_tree_partial Verif.C134_height_partial Verif.V2.C135_partial Verif.V2.C135_exact Verif.V2.C135_only
  Verif.V2.C136_partial Verif.V2.C136_exact Verif.V2.C136_only Verif.V2.C136_can Verif.V2.C137_partial
  Verif.V2.C137_exact Verif.V2.C137_only Verif.V2.C138_partial Verif.V2.C138_exact Verif.V2.C138_only
  Verif.frac64_sane Verif.C139_parse Verif.C139_sum Verif.C139_close Verif.C139_bytes Verif.C139_unitless
  Verif.C139_partial Verif.C139_exact Verif.C139_noop Verif.C139_counterexample Verif.C139_full_false
  Verif.Mgr.C140_entries Verif.Mgr.C140_bounded Verif.Mgr.C140_asked Verif.Mgr.C141_opaque Verif.Mgr.C141_outcome
  Verif.Mgr.C141_answers Verif.V2.C142_partial Verif.V2.C142_authorize Verif.V2.C142_can Verif.V2.C142_outcome
  Verif.V2.C142_full_false Verif.V1.C143_partial Verif.V1.C143_queries Verif.V1.C143_full_false
  Verif.V1.C143_old_false Verif.C144 Verif.C145_partial Verif.C145_thrice Verif.C146_partial Verif.C146_removed
  Verif.C146_now Verif.C147_state Verif.C147_history Verif.C147_moment Verif.C147_named_partial
  Verif.C147_after_partial Verif.V2.C148_state Verif.V2.C148_perms Verif.V2.C148_roles Verif.V2.C148_authorize_partial
  Verif.V2.C148_can_partial Verif.C149_state Verif.C149_partial Verif.V2.C150_block Verif.V2.C150_partial
  Verif.V2.C150_none_refused Verif.V1.C151_partial Verif.V1.C151_others_partial Verif.V1.C151_example
  Verif.V1.C151_others_example Verif.V2.C152_state Verif.V2.C152_partial Verif.V2.C153_assignments
  Verif.V2.C153_partial Verif.V2.C153_returns_partial Verif.V2.C153_panics Verif.V2.C154_partial
  Verif.V2.C154_returns_partial Verif.V2.C154_second Verif.V2.C155_only Verif.V2.C155_partial Verif.V2.C155_exact
  Verif.V2.C155_can Verif.V2.C155_returns Verif.V2.C156_aside Verif.V2.C156_returns Verif.V2.C156_state

rests_on [propext] :
  Verif.C05_counterexample Verif.C05_full_false Verif.C06_counterexample Verif.C09_counterexample Verif.C09_full_false
  Verif.C12_contains Verif.C15_link Verif.C18_counterexample Verif.C19_locked Verif.C19_lock Verif.C20_counterexample
  Verif.C21_error_unchanged Verif.C25_counterexample Verif.C26_unknown_principal Verif.C29_counterexample
  Verif.C31_counterexample Verif.C32_counterexample Verif.C35_unmanaged Verif.V1.C36_counterexample
  Verif.V1.C36_full_false Verif.V1.C43_default_known Verif.C45_rejects_diamond Verif.V2.C49_order_dependent
  Verif.V2.C50_tenant Verif.V2.C51_expired_manager Verif.V2.C52_counterexample Verif.V2.C52_counterexample_default
  Verif.V2.C53_counterexample Verif.V2.C54_order_dependent Verif.C60_setExpiry_rejects Verif.C60_setExpiryDuration
  Verif.C60_clear Verif.V2.C47_counterexample Verif.V2.C47_can_then_authorize Verif.V2.C47_authorize_then_can
  Verif.V2.C47_additions_ignored Verif.V2.C48_counterexample Verif.C63_counterexample Verif.C64_counterexample
  Verif.C66_text_partial Verif.C66_text_action_partial Verif.C66_counterexample Verif.C66_full_false
  Verif.V1.C68_counterexample Verif.V1.C68_full_false Verif.V1.C69_counterexample Verif.V1.C69_full_false
  Verif.V1.C71_setDefault Verif.V2.C73_setStatus Verif.C75_borrow_counterexample Verif.C75_clash_counterexample
  Verif.V1.C76_borrow_counterexample Verif.V1.C76_forge_counterexample Verif.V1.C76_full_false
  Verif.V1.C77_counterexample Verif.V1.C77_concurrent_counterexample Verif.C78_returns Verif.C81_counterexample
  Verif.V1.C82_counterexample Verif.V1.C82_full_false Verif.Conf.C85_counterexample Verif.Conf.C87_counterexample
  Verif.TC.C88_apart_alone Verif.TC.C88_counterexample Verif.TC.C89_panic_counterexample
  Verif.TC.C89_nil_counterexample Verif.TC.C89_wrong_counterexample Verif.RC.C90_counterexample
  Verif.RC.C90_full_false Verif.GC.C91_counterexample Verif.GC.C92_counterexample Verif.V2.C94_setDefaultTenant
  Verif.V2.C95_example Verif.V2.C96_counterexample Verif.AC.C104_counterexample Verif.VM.C105_counterexample
  Verif.VM.C105_full_false Verif.C106_counterexample Verif.C106_full_false Verif.MM.C110_counterexample
  Verif.MM.C111_counterexample Verif.RP.C118_asked Verif.RP.C118_roles Verif.RP.C118_cases Verif.RP.C118_when_cases
  Verif.RP.C118_when_authorize_cases Verif.RQ.C119_when_cases Verif.RQ.C119_prefix Verif.RQ.C119_assign
  Verif.RV.C120_roles Verif.RV.C120_asked Verif.RV.C120_cases Verif.RV.C120_given Verif.RV.C120_when_cases
  Verif.C122_counted Verif.C123_counterexample Verif.C123_full_false Verif.VMM.C126_counterexample
  Verif.VMA.C127_exact Verif.VMA.C128_counterexample Verif.C131_new_lock Verif.V2.C135_counterexample
  Verif.V2.C136_counterexample Verif.V2.C137_counterexample Verif.V2.C138_counterexample Verif.Mgr.C141_kinds
  Verif.C144_apart Verif.C145_counterexample Verif.C145_full_false Verif.C146_counterexample Verif.C147_counterexample
  Verif.V2.C148_counterexample Verif.C149_default

rests_on [propext, Quot.sound] :
  Verif.C07_insert_total Verif.C13_join Verif.C14_intersection Verif.C14_union Verif.C14_set_intersection
  Verif.C14_set_union Verif.C14_serializeStruct Verif.C14_serialize_injective Verif.RoleOp.reachable_ok
  Verif.C17_walk_iff Verif.C17_cycle Verif.C17_cycle_accepted Verif.C18_listing Verif.C18_groups
  Verif.C18_usable_partial Verif.C18_group_listing Verif.C18_own_listing Verif.C19_unlocked
  Verif.C19_addPermission_effect Verif.C20_has Verif.C20_role Verif.C20_group Verif.C20_exact Verif.C21_error_iff
  Verif.C21_success Verif.C21_granted Verif.C21_total Verif.C22_returns Verif.C23_descendants Verif.C23_returns_iff
  Verif.C23_cycle Verif.C23_cycle_accepted Verif.C30_counterexample Verif.C31_full_false Verif.C32_full_false
  Verif.C35_addPrincipalWithRole Verif.C35_addScopeToPrincipal Verif.C35_addPrincipal Verif.C35_assignScopes
  Verif.V1.C36_roundtrip Verif.V1.C36_rows Verif.V1.C37_exact Verif.V1.C38_exact_partial Verif.V1.C38_full_false
  Verif.V1.C39_partial Verif.V1.C39_tns_partial Verif.V1.C39_full_false Verif.V1.C40_edges Verif.V1.C42_full_false
  Verif.V1.C43_addPrincipalRole Verif.V1.C43_addPrincipal Verif.V1.C43_addPrincipalInNamespace
  Verif.V1.C43_addPrincipalInNamespace_copy Verif.V1.C43_assignScopesToPrincipal Verif.V1.C43_assignScopesWithRole
  Verif.V1.C43_histories Verif.V1.C43_never_removed Verif.Dag.C44_effect Verif.Dag.C46_closure Verif.Dag.C46_children
  Verif.Dag.C46_terminates Verif.V2.C49_full_false Verif.V2.C52_full_false Verif.V2.C53_full_false
  Verif.V2.C54_exact_partial Verif.V2.C54_sound Verif.V2.C54_full_false Verif.V2.C56_targets Verif.V2.C56_total
  Verif.Dag.C58_add Verif.Dag.C58_remove Verif.C60_setExpiry_accepts Verif.V2.C48_returns Verif.V2.C48_nil_panic
  Verif.V2.C48_full_false Verif.C57_can Verif.Pools.C57_mixed Verif.Pools.C57_lost Verif.Pools.C57_full_false
  Verif.C61_options Verif.C61_last_wins Verif.C62_descendantTenant Verif.C63_returns Verif.C65_addDescendant
  Verif.C65_addGroup Verif.C65_addPermission_existing Verif.C65_addPermission_new Verif.C65_addAttributes
  Verif.C66_exact Verif.V1.C68_rolePermissions Verif.V1.C68_once_partial Verif.V1.C69_descendants Verif.V1.C69_returns
  Verif.V1.C69_cycle Verif.V1.C70_first_wins Verif.V1.C70_lists Verif.V1.C70_returns Verif.V1.C71_addNamespace
  Verif.V1.C71_addRole Verif.V1.C71_addDescendent Verif.V1.C71_addScopes Verif.V1.C71_addScopes_default
  Verif.V1.C71_nsAddScopes Verif.V1.C71_nsAddRoles Verif.V1.C71_addRolesToNamespace
  Verif.V1.C71_addRolesToNamespace_unknown Verif.V1.C71_addScopesToNamespace Verif.V1.C71_addScopesToNamespace_unknown
  Verif.C72_newTenant Verif.C72_addTenant Verif.C72_addNamespace Verif.C72_addScopesToNamespace
  Verif.C72_addPrincipalInNamespace Verif.C72_addRole Verif.C72_addScope Verif.C72_lists Verif.C72_setDefaultNamespace
  Verif.V2.C73_newTenant Verif.V2.C73_addNamespace Verif.V2.C73_addScope Verif.V2.C73_addTenant Verif.V2.C74_can
  Verif.V2.C74_can_counterexample Verif.V2.C74_remove_counterexample Verif.V2.C74_full_false Verif.C75_full_false
  Verif.V1.C77_full_false Verif.C78_singles Verif.C78_bulk Verif.C78_newAttributes Verif.C78_v1_singles
  Verif.C78_v1_bulk Verif.C79_record Verif.C79_identifies Verif.C80_unique_partial Verif.C80_string_keys
  Verif.C80_exists Verif.C81_full_false Verif.V1.C82_resources Verif.Conf.C83_exclusive Verif.Conf.C84_guarded_partial
  Verif.Conf.C84_always_partial Verif.Conf.C84_fixed_partial Verif.Conf.C84_getRole_races
  Verif.Conf.C84_permissions_race Verif.Conf.C84_decisions_race Verif.Conf.C84_full_false Verif.Conf.C85_full_false
  Verif.TC.C88_full_false Verif.TC.C89_full_false Verif.RC.C90_registry Verif.RC.C90_agree_partial Verif.RC.C90_alone
  Verif.GC.C91_kept Verif.GC.C91_granted_partial Verif.GC.C91_stays_partial Verif.GC.C91_only Verif.GC.C91_alone
  Verif.GC.C91_lost Verif.GC.C91_full_false Verif.GC.C92_locked_partial Verif.GC.C92_groups_partial
  Verif.GC.C92_full_false Verif.RC.C93_registry_moves Verif.GC.C93_role_moves Verif.Dag.C94_addPermission
  Verif.Dag.C94_removePermission Verif.Dag.C94_addChildRole Verif.V2.C94_addChildRole Verif.V2.C96_full_false
  Verif.V1.C98_returns Verif.V1.C101_row Verif.V1.C101_counterexample Verif.V1.C101_full_false Verif.VM.C105_exact
  Verif.VM.C105_stored_partial Verif.VM.C105_only Verif.C107_one_byte Verif.C107_common_end Verif.GC.C109_exact
  Verif.GC.C109_quiet_partial Verif.GC.C109_counterexample Verif.GC.C109_full_false Verif.MM.C110_full_false
  Verif.MM.C110_made Verif.MM.C111_full_false Verif.NC.C112_alone Verif.NC.C112_no_crash Verif.NC.C112_recorded
  Verif.NC.C113_exact Verif.NC.C113_apart_partial Verif.NC.C113_manager Verif.C116_shadowed
  Verif.AD.C117_counterexample Verif.AD.C117_replaced Verif.AD.C117_cases Verif.RP.C118_nothing Verif.RP.C118_link
  Verif.RP.C118_attributes Verif.RP.C118_when_nil Verif.RQ.C119_without Verif.RQ.C119_panics Verif.RQ.C119_nothing
  Verif.RQ.C119_asked Verif.RQ.C119_can_asked Verif.RQ.C119_denied Verif.RQ.C119_counterexample Verif.RQ.C119_cases
  Verif.RV.C120_recovered Verif.RV.C120_keeps Verif.RV.C120_without Verif.RV.C120_panics Verif.RV.C120_nothing
  Verif.RV.C120_prefix Verif.RV.C120_attributes Verif.RV.C120_scope Verif.C122_at_most Verif.C122_refused
  Verif.C122_flat_partial Verif.C123_roles_length Verif.C123_tree_partial Verif.VMM.C125_others
  Verif.VMM.C125_everywhere_false Verif.VMM.C126_full_false Verif.VMA.C128_full_false Verif.V2.C130_counted
  Verif.V2.C130_roles Verif.C131_frame Verif.C131_unshared_false Verif.C132_bound Verif.C132_counted
  Verif.C134_counted Verif.C134_listing Verif.C134_cached Verif.V2.C135_can Verif.V2.C135_full_false
  Verif.V2.C136_full_false Verif.V2.C137_can Verif.V2.C137_full_false Verif.V2.C138_can Verif.V2.C138_full_false
  Verif.V2.C140_v2_entries Verif.V2.C140_v2_bounded Verif.V2.C140_v2_asked Verif.C146_full_false Verif.C147_full_false
  Verif.V2.C148_full_false Verif.C149_same_fields Verif.C149_counterexample Verif.C149_full_false
  Verif.V2.C150_accepted Verif.V2.C150_completes Verif.V2.C150_counterexample Verif.V2.C150_full_false
  Verif.V1.C151_underscore Verif.V1.C151_counterexample Verif.V1.C151_full_false Verif.V2.C152_example
  Verif.V2.C152_counterexample Verif.V2.C152_full_false Verif.V2.C153_permissions Verif.V2.C153_example
  Verif.V2.C153_counterexample Verif.V2.C153_full_false Verif.V2.C154_example Verif.V2.C154_returns_example
  Verif.V2.C154_counterexample Verif.V2.C154_twin Verif.V2.C154_full_false Verif.V2.C155_returns_example
  Verif.V2.C155_counterexample Verif.V2.C155_full_false Verif.V2.C156_example

rests_on [] :
  Verif.C14_serialize_collision Verif.C22_summary Verif.V1.C36_collision Verif.C65_new Verif.C67_rowKey
  Verif.V1.C70_totals Verif.V1.C71_new Verif.C79_messages Verif.C80_counterexample Verif.C80_full_false
  Verif.Dag.C94_newRole Verif.V2.C94_newAuthorizer Verif.V2.C94_request
