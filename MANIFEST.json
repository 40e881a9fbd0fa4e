{
 "claims": [
  {
   "property": "C01",
   "status": "proved",
   "theorems": [
    "Xolotl.Util.firstOrderSum_eq",
    "Xolotl.Util.secondOrderSum_eq",
    "Xolotl.Util.secondOrderOffsetSum_eq"
   ],
   "note": "Closed forms equal the sums over all integers of the range, for every centre, over any ordered field."
  },
  {
   "property": "C02",
   "status": "partial",
   "theorems": [
    "Xolotl.Network.overlapWidth_eq_card",
    "Xolotl.Network.overlapWidth_pos_iff",
    "Xolotl.Network.ProdIn.nOverlap_eq_card",
    "Xolotl.Network.ProdIn.nOverlap_no_product"
   ],
   "note": "Proved for reactions with a product; for reactions without product the code uses 1, refuted by a witness."
  },
  {
   "property": "C03",
   "status": "partial",
   "theorems": [
    "Xolotl.Network.ProdIn.coefs_eq",
    "Xolotl.Network.ProdIn.coefs_eq_one_axis",
    "Xolotl.Network.ProdIn.coefs_eq_order_zero",
    "Xolotl.Network.ProdIn.coefs_eq_one_grouped_axis",
    "Xolotl.Network.ProdIn.coefs_lost_two_axes"
   ],
   "note": "Exact for one moment axis, for one grouped axis and for order zero equations; with two or more grouped axes the entries listed by Lost are zero in the code (witness)."
  },
  {
   "property": "C04",
   "status": "partial",
   "theorems": [
    "Xolotl.Network.Fits.production_conserves_of_exact",
    "Xolotl.Network.Fits.production_conserves_one_axis",
    "Xolotl.Network.Fits.production_conserves_one_grouped_axis",
    "Xolotl.Network.Fits.production_not_conserving_two_axes",
    "Xolotl.Network.Reflect.reflection_flips_moment"
   ],
   "note": "On the reflected axes. Conservation for one moment axis or one common grouped axis; with two grouped axes the code does not conserve (witness), nor does recombination of a group projected on the other kind (witness)."
  },
  {
   "property": "C05",
   "status": "proved",
   "theorems": [
    "Xolotl.Network.DissIn.diss_coefs_eq",
    "Xolotl.Network.DFits.dissociation_conserves"
   ],
   "note": "Coefficients exact and content conserved for every grouping and number of axes; reactions whose compositions overlap on every axis, as the generator guarantees."
  },
  {
   "property": "C06",
   "status": "partial",
   "theorems": [
    "Xolotl.Network.DFits.dissociation_conserves",
    "Xolotl.Network.TmRxn.trapMutation_conserves",
    "Xolotl.Network.TmRxn.trapMutation_flux",
    "Xolotl.Network.addTrapMutations_spec",
    "Xolotl.Network.addTrapMutations_balance",
    "Xolotl.Network.addTrapMutations_invalid_interstitial",
    "Xolotl.Network.NucRxn.nucleation_conserves",
    "Xolotl.Network.NucRxn.nucleation_bounded",
    "Xolotl.Network.SinkRxn.sink_flux",
    "Xolotl.Network.SinkRxn.sink_removes"
   ],
   "note": "Re-solution, trap mutation, nucleation and sink stoichiometry. Trap mutation uses single clusters; the generator can store an unchecked interstitial id (witness)."
  },
  {
   "property": "C07",
   "status": "proved",
   "theorems": [
    "Xolotl.Network.Interleaves.perm",
    "Xolotl.Network.Interleaves.sequential",
    "Xolotl.Network.schedule_independent",
    "Xolotl.Network.schedule_sum",
    "Xolotl.Network.Network.network_conserves",
    "Xolotl.Network.Network.network_content",
    "Xolotl.Network.Network.network_content_one_axis"
   ],
   "note": "Every interleaving of the atomic additions of all reactions; content changes only by sinks when every other reaction conserves."
  },
  {
   "property": "C08",
   "status": "partial",
   "theorems": [
    "Xolotl.Network.ProdRxn.production_jacobian",
    "Xolotl.Network.ProdRxn.production_jacobian_second_product_only",
    "Xolotl.Network.DissRxn.dissociation_jacobian",
    "Xolotl.Network.TmRxn.trapMutation_jacobian_partial",
    "Xolotl.Network.TmRxn.trapMutation_jacobian_desorption",
    "Xolotl.Network.NucRxn.nucleation_jacobian",
    "Xolotl.Network.SinkRxn.sink_jacobian",
    "Xolotl.Network.Network.network_jacobian",
    "Xolotl.Network.Network.network_jacobian_rows"
   ],
   "note": "Dissociation, re-solution, sink: unconditional. Nucleation away from its corner. Production: exact derivative whenever the first product exists or none does; the remaining case is refuted by a witness. Trap mutation: exact when no desorption factor applies, otherwise refuted by a witness."
  },
  {
   "property": "C09",
   "status": "partial",
   "theorems": [
    "Xolotl.Network.ProdRxn.production_connectivity_covers",
    "Xolotl.Network.ProdRxn.production_reduced_covers",
    "Xolotl.Network.DissRxn.dissociation_connectivity_covers",
    "Xolotl.Network.DissRxn.dissociation_reduced_covers",
    "Xolotl.Network.DissRxn.dissociation_reduced_mapped",
    "Xolotl.Network.DissRxn.dissociation_reduced_unset_entry",
    "Xolotl.Network.TmRxn.trapMutation_connectivity_covers",
    "Xolotl.Network.NucRxn.nucleation_connectivity_covers",
    "Xolotl.Network.SinkRxn.sink_connectivity_covers",
    "Xolotl.Network.Network.network_connectivity_covers"
   ],
   "note": "All reaction types. The reduced dissociation Jacobian can write through an unset entry (witness)."
  },
  {
   "property": "C10",
   "status": "partial",
   "theorems": [
    "Xolotl.Network.ProdRxn.production_reduced_eq_diagonal",
    "Xolotl.Network.DissRxn.dissociation_reduced_eq_diagonal_partial",
    "Xolotl.Network.DissRxn.dissociation_reduced_misses_diagonal",
    "Xolotl.Network.TmRxn.trapMutation_reduced_eq_diagonal",
    "Xolotl.Network.NucRxn.nucleation_reduced_eq_diagonal",
    "Xolotl.Network.ConstRxn.constant_reduced_partial",
    "Xolotl.Network.ConstRxn.reduced_off_diagonal"
   ],
   "note": "Proved for production, trap mutation, nucleation; for dissociation only when the guard on the first product agrees with the second product, otherwise refuted by a witness. Constant reactions: proved for one moment axis, refuted for two."
  },
  {
   "property": "C47",
   "status": "proved",
   "theorems": [
    "Xolotl.Network.tm_select_iff",
    "Xolotl.Network.tm_select_select",
    "Xolotl.Network.tm_select_covered",
    "Xolotl.Network.tm_tables_closed",
    "Xolotl.Network.tm_tables_used",
    "Xolotl.Network.tm_tables_desorption",
    "Xolotl.Network.tm_tables_desorption_smallest",
    "Xolotl.Network.tm_tables_depth_bound"
   ],
   "note": "Selection from the depth tables for all depths and tables, and facts about every table row of every material."
  },
  {
   "property": "C11",
   "status": "proved",
   "theorems": [
    "Xolotl.Network.Conn.connectivity_correct",
    "Xolotl.Network.Conn.fill_rows",
    "Xolotl.Network.Conn.fill_schedule_independent",
    "Xolotl.Network.Conn.Fill.fill_no_error",
    "Xolotl.Network.Conn.Fill.fill_progress",
    "Xolotl.Network.Conn.getPosition_spec",
    "Xolotl.Network.Conn.getPosition_inj",
    "Xolotl.Network.Conn.counts_eq"
   ],
   "note": "Every schedule of the compare-and-swap fill, with progress and absence of out of bounds accesses; final rows sets are those requested."
  },
  {
   "property": "C12",
   "status": "proved",
   "theorems": [
    "Xolotl.Network.Gen.generation_correct",
    "Xolotl.Network.Gen.Pass.construct_rows",
    "Xolotl.Network.Gen.Pass.construct_progress"
   ],
   "note": "Count pass and construct pass for every schedule: each requested reaction stored exactly once, no overrun."
  },
  {
   "property": "C13",
   "status": "proved",
   "theorems": [
    "Xolotl.Network.Numbering.dof_bijection",
    "Xolotl.Network.Numbering.momentId_isSome",
    "Xolotl.Network.Numbering.slotTables_sorted",
    "Xolotl.Network.Numbering.slotTables_shared",
    "Xolotl.Network.Numbering.dof_hole_two_grouped_one_slot"
   ],
   "note": "For clusters whose grouped species use different slots, which the numbering needs (witness of the hole otherwise)."
  },
  {
   "property": "C14",
   "status": "partial",
   "theorems": [
    "Xolotl.Network.Numbering.Chain.collection_bijection",
    "Xolotl.Network.Numbering.Chain.resize_partial",
    "Xolotl.Network.Numbering.Chain.resize_grow_loses"
   ],
   "note": "Construction: proved. setView: proved while the total does not exceed the one at construction; growth loses elements (witness)."
  },
  {
   "property": "C15",
   "status": "proved",
   "theorems": [
    "Xolotl.Util.Stepper.time_eq",
    "Xolotl.Util.Stepper.time_strictMono",
    "Xolotl.Util.Stepper.loop_terminates",
    "Xolotl.Util.Stepper.loop_bounded",
    "Xolotl.Util.Growth.growth_loop_terminates",
    "Xolotl.Util.Growth.shrinking_loop_diverges"
   ],
   "note": "Any step sequence. Growth factors below one can make the loop infinite (witness), as the statement's hypothesis expects."
  },
  {
   "property": "C16",
   "status": "partial",
   "theorems": [
    "Xolotl.Util.Growth.growth_bounds",
    "Xolotl.Util.Growth.growth_reaches",
    "Xolotl.Util.Growth.shrink_bounds",
    "Xolotl.Util.Growth.growth_first_exceeds",
    "Xolotl.Util.Ramp.ramp_value",
    "Xolotl.Util.Ramp.ramp_bounds",
    "Xolotl.Util.Ramp.ramp_bounds_desc",
    "Xolotl.Util.Ramp.ramp_zero_steps"
   ],
   "note": "Proved when the first value does not exceed the final value and the ramp has at least one step; refuted otherwise by witnesses."
  },
  {
   "property": "C17",
   "status": "partial",
   "theorems": [
    "Xolotl.Util.Growth.partialSumAt_eq",
    "Xolotl.Util.Growth.timeAtStep_eq",
    "Xolotl.Util.Growth.valAt_partial",
    "Xolotl.Util.Growth.valAt_constant",
    "Xolotl.Util.Growth.valAt_saturated",
    "Xolotl.Util.Growth.at_ignores_initialStep"
   ],
   "note": "Partial sums and times: proved for every sequence. Step sizes: proved for sequences starting at step zero; refuted for restarted sequences."
  },
  {
   "property": "C18",
   "status": "partial",
   "theorems": [
    "Xolotl.Util.Leg.restart_once_partial",
    "Xolotl.Util.Leg.restart_repeated_partial",
    "Xolotl.Util.Leg.second_restart_differs"
   ],
   "note": "One restart: proved for every stopping step. Several restarts: proved once the step size is constant, refuted while it grows."
  },
  {
   "property": "C46",
   "status": "proved",
   "theorems": [
    "Xolotl.Network.Reflect.span_exact",
    "Xolotl.Network.Reflect.reflected_eq_span",
    "Xolotl.Network.Reflect.one_V_exact",
    "Xolotl.Network.Reflect.dev_span",
    "Xolotl.Network.Reflect.one_V_dev",
    "Xolotl.Network.Reflect.reflected_sum_dev",
    "Xolotl.Network.Reflect.dispOne_eq",
    "Xolotl.Network.Reflect.dispMany_eq",
    "Xolotl.Network.Reflect.toSigned_wrap",
    "Xolotl.Network.Reflect.side_chosen",
    "Xolotl.Network.Reflect.own_side",
    "Xolotl.Network.Reflect.reflection_flips_moment"
   ],
   "note": "Every formula of the code is the exact span of net contents. The projection reverses the sign of first moments of groups of the other kind, which the flux code ignores (witness reflection_flips_moment)."
  },
  {
   "property": "C44",
   "status": "partial",
   "theorems": [
    "Xolotl.Network.Products.psiIV_exact",
    "Xolotl.Network.Products.psiII_exact",
    "Xolotl.Network.Products.zrIV_exact",
    "Xolotl.Network.Products.zrIB_exact",
    "Xolotl.Network.Products.zrVB_exact",
    "Xolotl.Network.Products.sameKind_exact",
    "Xolotl.Network.Products.alloyIL_exact",
    "Xolotl.Network.Products.alloyVL_exact",
    "Xolotl.Network.Products.alloyVL_duplicates",
    "Xolotl.Network.Products.alloyPF_sizes_partial",
    "Xolotl.Network.Products.alloyPF_largest_missing",
    "Xolotl.Network.Products.alloyPF_straddle_empty",
    "Xolotl.Network.Products.alloyPF_negative_unreached"
   ],
   "note": "PSI and Zr: proved for every tiling. Alloy: proved for vacancies and interstitials with loops when grouping starts above the small clusters (duplicates otherwise, witness); Perfect + Faulted and Perfect + Void always miss products (proved)."
  },
  {
   "property": "C45",
   "status": "partial",
   "theorems": [
    "Xolotl.Network.Products.general_exact_partial",
    "Xolotl.Network.Products.general_negative_none",
    "Xolotl.Network.Products.general_straddle_none",
    "Xolotl.Network.Products.general_straddle_witness",
    "Xolotl.Network.Products.tmSearch_balanced",
    "Xolotl.Network.Products.tmSearch_unbalanced"
   ],
   "note": "Exact when no net vacancy number is negative, and when all are; nothing is selected when the range straddles zero (proved with a witness)."
  },
  {
   "property": "C19",
   "status": "partial",
   "theorems": [
    "Xolotl.Network.Const.sub_network_flux_partial",
    "Xolotl.Network.Const.sub_network_total_partial",
    "Xolotl.Network.ProdRxn.constant_rates_partial",
    "Xolotl.Network.ProdRxn.constant_connectivities",
    "Xolotl.Network.ProdRxn.constant_rates_covered",
    "Xolotl.Network.DissRxn.constant_rates_partial",
    "Xolotl.Network.DissRxn.constant_connectivities",
    "Xolotl.Network.DissRxn.constant_rates_covered_partial",
    "Xolotl.Network.Const.constant_reactions_flux",
    "Xolotl.Network.ConstRxn.constant_jacobian",
    "Xolotl.Network.ConstRxn.constant_partials_covered",
    "Xolotl.Network.Const.both_in_lost",
    "Xolotl.Network.Const.second_in_wrong",
    "Xolotl.Network.Const.diss_moment_wrong",
    "Xolotl.Network.ConstOther.sink_exact",
    "Xolotl.Network.ConstOther.tm_gap",
    "Xolotl.Network.ConstOther.tm_partial",
    "Xolotl.Network.ConstOther.tm_lost",
    "Xolotl.Network.ConstOther.nuc_lost",
    "Xolotl.Network.ConstOther.resol_rates_partial",
    "Xolotl.Network.ConstOther.tm_position_invalid",
    "Xolotl.Network.ConstOther.resol_position_invalid"
   ],
   "note": "Network-wide: constant reactions with the computed rates give exactly the flux of the reactions not inside the sub-network, and inside plus constant equals the full flux. Excluded, with witnesses that the code is wrong there: both reactants inside with a product outside, second reactant inside with two or more moment axes, dissociation with grouped reactant and grouped first product inside. Sinks need none (proved). Trap mutation, re-solution and nucleation: refuted where their products cross, since no valid entry exists or nothing is recorded."
  },
  {
   "property": "C20",
   "status": "partial",
   "theorems": [
    "Xolotl.Network.Sub.cluster_map",
    "Xolotl.Network.Sub.map_nodup",
    "Xolotl.Network.Sub.maps_disjoint",
    "Xolotl.Network.Sub.maps_partition",
    "Xolotl.Network.Sub.back_map",
    "Xolotl.Network.Sub.momentId_distinct",
    "Xolotl.Network.Sub.scatter_spec",
    "Xolotl.Network.Sub.gather_spec",
    "Xolotl.Network.Sub.gather_faithful",
    "Xolotl.Network.Sub.moments_lost",
    "Xolotl.Network.Sub.moment_lost_witness",
    "Xolotl.Network.Sub.missing_bound_shifts"
   ],
   "note": "Maps: defined, bounds and moment slots preserved, injective, partition of the full network's degrees of freedom; isInSub/backMap correct for every order of the device loop. Gathering: faithful if the dense vectors had one entry per degree of freedom, but the code sizes them by the number of clusters, so every first moment arrives as zero (moments_lost). A bound missing from the full network misaligns the map (missing_bound_shifts)."
  },
  {
   "property": "C21",
   "status": "proved",
   "theorems": [
    "Xolotl.Network.Sub.csr_describes",
    "Xolotl.Network.Sub.getPosition_marked",
    "Xolotl.Network.Sub.getPosition_inj",
    "Xolotl.Network.Sub.getPosition_surj",
    "Xolotl.Network.Sub.rate_array"
   ],
   "note": ""
  },
  {
   "property": "C22",
   "status": "partial",
   "theorems": [
    "Xolotl.Flux.kernel_any_order",
    "Xolotl.Flux.handed_over",
    "Xolotl.Flux.handed_over_partial",
    "Xolotl.Flux.sum_over_subs_partial",
    "Xolotl.Flux.lost_amount",
    "Xolotl.Flux.repeated_cluster_loses",
    "Xolotl.Flux.zr_set_ineffective",
    "Xolotl.Flux.zr_sub_source",
    "Xolotl.Flux.zr_interstitial",
    "Xolotl.Flux.zr_split",
    "Xolotl.Flux.alloy_set",
    "Xolotl.Flux.alloy_repeated_stops"
   ],
   "note": "Exact when no cluster is listed twice. A grouped cluster listed once per size is handed only its first source (lost_amount, witness). The AlphaZr handler never uses what it is handed (zr_set_ineffective), so its own table decides, and that one is right for grouped clusters too (zr_sub_source). The alloy handler stops the run when a repetition occurs (witness)."
  },
  {
   "property": "C23",
   "status": "partial",
   "theorems": [
    "Xolotl.Flux.implanted_integral",
    "Xolotl.Flux.implanted_nonneg",
    "Xolotl.Flux.implanted_ends",
    "Xolotl.Flux.implanted_none",
    "Xolotl.Flux.implanted_value",
    "Xolotl.Flux.recompute_fresh",
    "Xolotl.Flux.recompute_history",
    "Xolotl.Flux.reads_exist",
    "Xolotl.Flux.customFit_nonneg",
    "Xolotl.Flux.customFit_eq",
    "Xolotl.Flux.pointValue_eq",
    "Xolotl.Flux.w100_nonneg",
    "Xolotl.Flux.w211_nonneg",
    "Xolotl.Flux.w110_w111_negative",
    "Xolotl.Flux.w110_negative_flux",
    "Xolotl.Flux.recompute_no_grid",
    "Xolotl.Flux.stale_norm",
    "Xolotl.Flux.tiny_grid"
   ],
   "note": "Integral, ends, values and amplitude changes: proved for every grid, position and profile. Non-negativity: proved for non-negative profiles, among them custom, W100 and W211; refuted for W110 and W111. A time profile without a grid leaves the vectors (recompute_no_grid)."
  },
  {
   "property": "C24",
   "status": "proved",
   "theorems": [
    "Xolotl.Util.Interp.inside",
    "Xolotl.Util.Interp.before",
    "Xolotl.Util.Interp.after",
    "Xolotl.Util.Interp.defined",
    "Xolotl.Util.Interp.exact_at",
    "Xolotl.Util.Interp.linear_between",
    "Xolotl.Util.Interp.within",
    "Xolotl.Util.Interp.empty_undefined",
    "Xolotl.Util.Interp.cleared_undefined"
   ],
   "note": "Even without assuming increasing times the value is defined. cleared_undefined records that the custom flux handler clears the values but not the times, so its time profile is undefined."
  },
  {
   "property": "C25",
   "status": "proved",
   "theorems": [
    "Xolotl.Flux.fluence_total",
    "Xolotl.Flux.fluence_start",
    "Xolotl.Flux.fluence_constant",
    "Xolotl.Flux.computeFluence_spec",
    "Xolotl.Flux.fluence_bad_restart"
   ],
   "note": ""
  },
  {
   "property": "C52",
   "status": "partial",
   "theorems": [
    "Xolotl.Flux.toInt_spec",
    "Xolotl.Flux.pulse_on_iff",
    "Xolotl.Flux.pulse_off",
    "Xolotl.Flux.pulse_total_partial",
    "Xolotl.Flux.pulse_zero",
    "Xolotl.Flux.pulse_overflow"
   ],
   "note": "Proved while the period number fits an int and for pulse time and proportion not below the rounding threshold; beyond, the conversion is undefined (pulse_overflow)."
  },
  {
   "property": "C26",
   "status": "proved",
   "theorems": [
    "Xolotl.Transport.conc1_eq",
    "Xolotl.Transport.conc2_eq",
    "Xolotl.Transport.conc3_eq",
    "Xolotl.Transport.conc1_flux",
    "Xolotl.Transport.flux_form1",
    "Xolotl.Transport.spacing_shared",
    "Xolotl.Transport.spacing_pos",
    "Xolotl.Transport.flux_form_grid",
    "Xolotl.Transport.cell_width_not_conserved",
    "Xolotl.Transport.variable_not_conserved",
    "Xolotl.Transport.conc2_split",
    "Xolotl.Transport.conc3_split",
    "Xolotl.Transport.flux_form2",
    "Xolotl.Transport.flux_form3",
    "Xolotl.Transport.conc1_linear",
    "Xolotl.Transport.constant_vanishes",
    "Xolotl.Transport.linear_vanishes",
    "Xolotl.Transport.minimum_principle",
    "Xolotl.Transport.diffusing_spec",
    "Xolotl.Transport.addAll_spec",
    "Xolotl.Transport.writeAll_spec"
   ],
   "note": "The weight of a grid point in the flux form is (hL+hR)/2; with the distance to the left neighbour as weight the sum is not conserved on a grid with a kink (cell_width_not_conserved), and with a coefficient that varies in space the operator is not in flux form (variable_not_conserved)."
  },
  {
   "property": "C27",
   "status": "partial",
   "theorems": [
    "Xolotl.Transport.Mask.build_iff",
    "Xolotl.Transport.Mask.rows1_exact",
    "Xolotl.Transport.Mask.rows2_exact",
    "Xolotl.Transport.Mask.rows3_exact",
    "Xolotl.Transport.Mask.advDepth_uniform",
    "Xolotl.Transport.Mask.advDepth_defined",
    "Xolotl.Transport.Mask.mask1_spec",
    "Xolotl.Transport.Mask.mask1_defined",
    "Xolotl.Transport.Mask.mask1_partial",
    "Xolotl.Transport.Mask.mask1_shifted",
    "Xolotl.Transport.Mask.mask2_spec",
    "Xolotl.Transport.Mask.mask2_yplane_partial",
    "Xolotl.Transport.Mask.mask2_last_column",
    "Xolotl.Transport.Mask.mask3_spec",
    "Xolotl.Transport.Mask.mask1_wrong_point",
    "Xolotl.Transport.Mask.mask1_wrong_column",
    "Xolotl.Transport.Mask.mask1_out_of_bounds",
    "Xolotl.Transport.Mask.adv_out_of_bounds",
    "Xolotl.Transport.Mask.adv_grid_overrun",
    "Xolotl.Transport.Mask.adv_aligned"
   ],
   "note": "What the loops clear is characterised exactly; the property holds when advecting ids equal list positions and only for sinks where the row offset is right. Witnesses: wrong point, wrong cluster, writes outside the mask."
  },
  {
   "property": "C28",
   "status": "partial",
   "theorems": [
    "Xolotl.Transport.Adv.surf_eq",
    "Xolotl.Transport.Adv.x_eq_off",
    "Xolotl.Transport.Adv.x_eq_on",
    "Xolotl.Transport.Adv.x_one_dimensional",
    "Xolotl.Transport.Adv.x_on_sink_missing",
    "Xolotl.Transport.Adv.y_eq",
    "Xolotl.Transport.Adv.z_eq",
    "Xolotl.Transport.Adv.stencil_away",
    "Xolotl.Transport.Adv.signs",
    "Xolotl.Transport.Adv.drift",
    "Xolotl.Transport.Adv.surf_flux",
    "Xolotl.Transport.Adv.surf_conserved",
    "Xolotl.Transport.Adv.surf_gradient_not_conserved",
    "Xolotl.Transport.Adv.y_off_flux",
    "Xolotl.Transport.Adv.y_on_flux",
    "Xolotl.Transport.Adv.y_conserved",
    "Xolotl.Transport.Adv.z_as_y",
    "Xolotl.Transport.Adv.x_as_y"
   ],
   "note": "Exact derivatives except for the x boundary on the sink in two and three dimensions (x_on_sink_missing); conservation at constant temperature."
  },
  {
   "property": "C29",
   "status": "partial",
   "theorems": [
    "Xolotl.Transport.Soret.rate_eq_partial",
    "Xolotl.Transport.Soret.rate_increment_partial",
    "Xolotl.Transport.Soret.skipped_wrong",
    "Xolotl.Transport.Soret.isothermal",
    "Xolotl.Transport.Soret.betas_first",
    "Xolotl.Transport.Soret.betas_stale"
   ],
   "note": "Exact unless the concentration is skipped as zero, where the reported values are not the derivative (skipped_wrong)."
  },
  {
   "property": "C30",
   "status": "partial",
   "theorems": [
    "Xolotl.Transport.Heat.alpha_spec",
    "Xolotl.Transport.Heat.atInterface_spec",
    "Xolotl.Transport.Heat.atInterface_unique",
    "Xolotl.Transport.Heat.hasDerivAt_beta",
    "Xolotl.Transport.Heat.hasDerivAt_dBeta",
    "Xolotl.Transport.Heat.hasDerivAt_gamma",
    "Xolotl.Transport.Heat.hasDerivAt_bulkFlux",
    "Xolotl.Transport.Heat.neighbours",
    "Xolotl.Transport.Heat.neighbours_transverse",
    "Xolotl.Transport.Heat.interior_mid",
    "Xolotl.Transport.Heat.interior_partial",
    "Xolotl.Transport.Heat.surface_mid",
    "Xolotl.Transport.Heat.surface_wrong",
    "Xolotl.Transport.Heat.bulk_mid",
    "Xolotl.Transport.Heat.bulk_flux_mid",
    "Xolotl.Transport.Heat.interface_wrong"
   ],
   "note": "Neighbour values exact at surface, interior and bulk in every dimension; middle value exact at interior points in one dimension. Elsewhere the exact error is computed: surface and bulk flux multiply where the derivative divides, the bulk portion lacks two terms, more dimensions lack the material derivatives, interface points report the surface formula."
  },
  {
   "property": "C31",
   "status": "partial",
   "theorems": [
    "Xolotl.Solver.Grid.uniform_good",
    "Xolotl.Solver.Grid.nonuniform_good",
    "Xolotl.Solver.Grid.nonuniform_announced",
    "Xolotl.Solver.Grid.step_deep",
    "Xolotl.Solver.Grid.geometric_good",
    "Xolotl.Solver.Grid.geometric_ratio",
    "Xolotl.Solver.Grid.read_good",
    "Xolotl.Solver.Grid.read_short",
    "Xolotl.Solver.Grid.cheby_inner_partial",
    "Xolotl.Solver.Grid.cheby_zero_width",
    "Xolotl.Solver.Grid.cheby_hxLeft",
    "Xolotl.Solver.Grid.cheby_none",
    "Xolotl.Solver.Grid.good_spacings",
    "Xolotl.Solver.Grid.tempGrid_increasing",
    "Xolotl.Solver.Grid.tempGrid_covers",
    "Xolotl.Solver.Grid.tempGrid_first"
   ],
   "note": "Proved for the uniform, nonuniform, geometric and read grids and for the temperature grid. The Chebyshev grid repeats its first and last points (cheby_zero_width), so the spacing there is zero; its inner points increase."
  },
  {
   "property": "C32",
   "status": "proved",
   "theorems": [
    "Xolotl.Solver.Move.grow_spec",
    "Xolotl.Solver.Move.grow_length",
    "Xolotl.Solver.Move.retract_spec",
    "Xolotl.Solver.Move.trim_spec",
    "Xolotl.Solver.Move.moves_increasing"
   ],
   "note": "Retraction past the depth available reads before the start of the grid; the model returns none there (retract_spec)."
  },
  {
   "property": "C54",
   "status": "partial",
   "theorems": [
    "Xolotl.Solver.Move.segment_some",
    "Xolotl.Solver.Move.segment_defined",
    "Xolotl.Solver.Move.transfer_linear",
    "Xolotl.Solver.Move.transfer_exact",
    "Xolotl.Solver.Move.transfer_between",
    "Xolotl.Solver.Move.grow_not_above",
    "Xolotl.Solver.Move.grow_negative",
    "Xolotl.Solver.Move.holder_unique",
    "Xolotl.Solver.Move.retraction_treated_as_growth",
    "Xolotl.Solver.Move.back_spec",
    "Xolotl.Solver.Move.back_account",
    "Xolotl.Solver.Move.up_account",
    "Xolotl.Solver.Move.back_account_wrong"
   ],
   "note": "Interpolation proved. Refuted: growth on a read grid whose first spacing exceeds the second extrapolates to negative values (grow_negative); a retraction is treated as growth (retraction_treated_as_growth); the account of an erosion charges another depth than the grid removes (back_account_wrong)."
  },
  {
   "property": "C33",
   "status": "partial",
   "theorems": [
    "Xolotl.Solver.TempTransfer.gathered_all",
    "Xolotl.Solver.TempTransfer.stale_gather",
    "Xolotl.Solver.TempTransfer.interp_between",
    "Xolotl.Solver.TempTransfer.interp_exact",
    "Xolotl.Solver.TempTransfer.interp_outside",
    "Xolotl.Solver.TempTransfer.interpolate_partial",
    "Xolotl.Solver.TempTransfer.interpolate_same",
    "Xolotl.Solver.TempTransfer.interpolate_independent",
    "Xolotl.Solver.TempTransfer.left_gets_last",
    "Xolotl.Solver.TempTransfer.uniform_left_gets_last",
    "Xolotl.Solver.TempTransfer.regrid_last"
   ],
   "note": "Proved except before the first place of the temperature grid, where the code returns the temperature of the other end (left_gets_last; always the case on uniform grids with power above one, uniform_left_gets_last). Rebuilding the grid gives the last ghost its neighbour's temperature (regrid_last) and gathers too few values after the surface grew (stale_gather)."
  },
  {
   "property": "C53",
   "status": "partial",
   "theorems": [
    "Xolotl.Solver.Coo.placed_partial",
    "Xolotl.Solver.Coo.placed_end_partial",
    "Xolotl.Solver.Coo.placed1_partial",
    "Xolotl.Solver.Coo.stop_misplaces",
    "Xolotl.Solver.Coo.temp_once_partial",
    "Xolotl.Solver.Coo.temp_twice",
    "Xolotl.Solver.Coo.temp_twice_robin",
    "Xolotl.Solver.Coo.padding_overflow",
    "Xolotl.Solver.Coo.padding_out_of_bounds",
    "Xolotl.Solver.Coo.ygb_wrong_column",
    "Xolotl.Solver.Coo.ygb_wrong_on_sink",
    "Xolotl.Solver.Coo.ygb_right_column",
    "Xolotl.Solver.FillMap.nw_slot"
   ],
   "note": "Proved when every advection handler covers the same number of clusters, no point stops early and the handlers' stencils do not depend on the transverse position. Refuted elsewhere: free surface at the first point stops without advancing the index, the temperature value is written twice at a boundary, padding is one entry short per missing cluster, and Y/Z sinks are preallocated at position 0."
  },
  {
   "property": "C37",
   "status": "proved",
   "theorems": [
    "Xolotl.Solver.FillMap.toPetsc_eq",
    "Xolotl.Solver.FillMap.toPetsc_row",
    "Xolotl.Solver.FillMap.pairs_eq",
    "Xolotl.Solver.FillMap.pairs_sorted",
    "Xolotl.Solver.FillMap.pairs_row",
    "Xolotl.Solver.FillMap.coords_eq",
    "Xolotl.Solver.FillMap.diagonal_row",
    "Xolotl.Solver.FillMap.pairs_position",
    "Xolotl.Solver.FillMap.nw_slot",
    "Xolotl.Solver.FillMap.extra_row"
   ],
   "note": ""
  },
  {
   "property": "C34",
   "status": "proved",
   "theorems": [
    "Xolotl.IO.Ragged.write_eq",
    "Xolotl.IO.Ragged.read_eq",
    "Xolotl.IO.Ragged.round_trip",
    "Xolotl.IO.Ragged.round_trip_ranks",
    "Xolotl.IO.Ragged.read_past",
    "Xolotl.IO.Ragged.empty_rank_undefined",
    "Xolotl.IO.Ragged.too_large_lost"
   ],
   "note": ""
  },
  {
   "property": "C35",
   "status": "partial",
   "theorems": [
    "Xolotl.IO.Sparse.overlay_save",
    "Xolotl.IO.Sparse.restart_save",
    "Xolotl.IO.Sparse.restart_close",
    "Xolotl.IO.Sparse.checkpoint_round_trip",
    "Xolotl.IO.Sparse.transfer0",
    "Xolotl.IO.Sparse.cold_temperature",
    "Xolotl.IO.Sparse.all_negligible",
    "Xolotl.IO.Sparse.smaller_network",
    "Xolotl.IO.Sparse.transfer_stale"
   ],
   "note": "Restart from the checkpoint proved for temperatures above the cut-off; a colder point gets another value as temperature (cold_temperature) or reads an empty list (all_negligible). setConcVector with space leaves what was there for values under the cut-off (transfer_stale)."
  },
  {
   "property": "C36",
   "status": "partial",
   "theorems": [
    "Xolotl.IO.Steps.name_inj",
    "Xolotl.IO.Steps.add_times",
    "Xolotl.IO.Steps.last_added",
    "Xolotl.IO.Steps.last_none",
    "Xolotl.IO.Steps.history_times_partial",
    "Xolotl.IO.Steps.lookup_partial",
    "Xolotl.IO.Steps.lookup_ignores_control",
    "Xolotl.IO.Steps.repeat_undefined",
    "Xolotl.IO.Steps.wrong_group_updated"
   ],
   "note": "The lookup ignores the control step: stored steps of later control steps are not found, adding one twice uses a null pointer or overwrites the times of control step 0. Everything else proved for all histories."
  },
  {
   "property": "C38",
   "status": "proved",
   "theorems": [
    "Xolotl.Network.Sizes.loop_iff",
    "Xolotl.Network.Sizes.loop_ends",
    "Xolotl.Network.Sizes.adapt_eq",
    "Xolotl.Network.Sizes.adapt_least",
    "Xolotl.Network.Sizes.adapt_defined",
    "Xolotl.Network.Sizes.adapt_some",
    "Xolotl.Network.Sizes.adapt_twice",
    "Xolotl.Network.Sizes.adapt_wrap",
    "Xolotl.Network.Sizes.zr_sizes",
    "Xolotl.Network.Sizes.gasV_plain",
    "Xolotl.Network.Sizes.gasV_grouped",
    "Xolotl.Network.Sizes.alloy_sizes",
    "Xolotl.Network.Sizes.alloy_fits_partial",
    "Xolotl.Network.Sizes.alloy_void_misfit",
    "Xolotl.Network.Sizes.alloy_default_width",
    "Xolotl.Network.Sizes.psi_vacancy",
    "Xolotl.Network.Sizes.psi_helium",
    "Xolotl.Network.Sizes.psi_hydrogen",
    "Xolotl.Network.Sizes.psi_no_extra",
    "Xolotl.Network.Sizes.psi_defined",
    "Xolotl.Network.Sizes.psi_species",
    "Xolotl.Network.Sizes.psi_fits_partial",
    "Xolotl.Network.Sizes.psi_wrap",
    "Xolotl.Network.Sizes.psi_overrefined",
    "Xolotl.Network.Sizes.psi_hydrogen_dropped",
    "Xolotl.Network.Sizes.psi_no_width"
   ],
   "note": "All five generators. The size rule, the termination condition and the rule for extra rows are proved for every request; the ratios fitting the sizes (beyond the statement) hold with exceptions that are proved as findings."
  },
  {
   "property": "C39",
   "status": "proved",
   "theorems": [
    "Xolotl.Options.Processes.setList_spec",
    "Xolotl.Options.Processes.setString_spec",
    "Xolotl.Options.Processes.calls_spec",
    "Xolotl.Options.Processes.line_forgets",
    "Xolotl.Options.Processes.empty_list_unset",
    "Xolotl.Options.Processes.rejected_half_done"
   ],
   "note": "Exact law for any sequence of calls of both overloads."
  },
  {
   "property": "C40",
   "status": "partial",
   "theorems": [
    "Xolotl.Options.NetParams.set_defined",
    "Xolotl.Options.NetParams.set_history",
    "Xolotl.Options.NetParams.set_last",
    "Xolotl.Options.NetParams.set_pureV",
    "Xolotl.Options.NetParams.set_five",
    "Xolotl.Options.NetParams.set_one",
    "Xolotl.Options.NetParams.alloySub_spec",
    "Xolotl.Options.NetParams.alloySub_short",
    "Xolotl.Options.NetParams.alloySub_void_lost",
    "Xolotl.Options.NetParams.zrSub_spec",
    "Xolotl.Options.NetParams.zrSub_cover",
    "Xolotl.Options.NetParams.zrSub_single",
    "Xolotl.Options.NetParams.zrSub_pure"
   ],
   "note": "History independence, default and bounds proved for every list. The sub-instances cover the request for five parameters or more; voids without vacancies are lost and a single parameter is not restricted (proved)."
  },
  {
   "property": "C41",
   "status": "proved",
   "theorems": [
    "Xolotl.Util.Tokenizer.tokens_unique",
    "Xolotl.Util.Tokenizer.reads_tokens",
    "Xolotl.Util.Tokenizer.token_ok",
    "Xolotl.Util.Tokenizer.tokens_flatten",
    "Xolotl.Util.Tokenizer.tokens_join",
    "Xolotl.Util.Tokenizer.tokens_normalise",
    "Xolotl.Util.Tokenizer.tokens_append",
    "Xolotl.Util.Tokenizer.ints_length",
    "Xolotl.Util.Tokenizer.ints_append",
    "Xolotl.Util.Tokenizer.extract_digits",
    "Xolotl.Util.Tokenizer.extract_minus",
    "Xolotl.Util.Tokenizer.extract_plus",
    "Xolotl.Util.Tokenizer.extract_word",
    "Xolotl.Util.Tokenizer.tab_not_separator",
    "Xolotl.Util.Tokenizer.malformed_accepted"
   ],
   "note": "Typed tokens are modelled for int."
  },
  {
   "property": "C55",
   "status": "proved",
   "theorems": [
    "Xolotl.Options.Comments.strip_doc",
    "Xolotl.Options.Comments.strip_plain",
    "Xolotl.Options.Comments.quoted_lost",
    "Xolotl.Options.Comments.lines_glued",
    "Xolotl.Options.Comments.not_idempotent"
   ],
   "note": "Comment marks inside strings are treated as comments (proved)."
  },
  {
   "property": "C50",
   "status": "partial",
   "theorems": [
    "Xolotl.Util.InOrder.in_order",
    "Xolotl.Util.InOrder.starts_after_barrier",
    "Xolotl.Util.InOrder.zero_last",
    "Xolotl.Util.InOrder.no_deadlock",
    "Xolotl.Util.InOrder.bounded",
    "Xolotl.Util.InOrder.completes",
    "Xolotl.Util.InOrder.single_deadlock"
   ],
   "note": "Proved for every number of ranks, every interleaving and every choice of buffered or synchronous sends, except one case where the claim is false: a single rank sends to itself, which never returns if the library does not buffer (single_deadlock)."
  },
  {
   "property": "C42",
   "status": "partial",
   "theorems": [
    "Xolotl.Perf.Timers.run_value",
    "Xolotl.Perf.Timers.rejected",
    "Xolotl.Perf.Timers.value_mono",
    "Xolotl.Perf.Timers.scopes_sum",
    "Xolotl.Perf.Timers.count_eq",
    "Xolotl.Perf.Timers.clock_back",
    "Xolotl.Perf.Timers.epoch_lost",
    "Xolotl.Perf.Timers.nested_throws"
   ],
   "note": "Proved for every history in which the clock never reads exactly the epoch (the sentinel is the epoch because numeric_limits is not specialised for time points; epoch_lost shows the interval is then lost). Also: timers bound to scopes, and event counters."
  },
  {
   "property": "C43",
   "status": "partial",
   "theorems": [
    "Xolotl.Perf.Stats.marshal_eq",
    "Xolotl.Perf.Stats.gather_eq",
    "Xolotl.Perf.Stats.parse_joined",
    "Xolotl.Perf.Stats.names_union",
    "Xolotl.Perf.Stats.statistics_spec",
    "Xolotl.Perf.Stats.aggregate_spec",
    "Xolotl.Perf.Stats.hw_statistics",
    "Xolotl.Perf.Stats.negative_max",
    "Xolotl.Perf.Stats.hw_overcount"
   ],
   "note": "Proved for timers and event counters with values in the range of their type's MinValue and MaxValue. False for a negative timer (negative_max) and for hardware counters whose specification differs between ranks (hw_overcount); hw_statistics covers the case where it does not."
  },
  {
   "property": "C51",
   "status": "partial",
   "theorems": [
    "Xolotl.Network.Species.visits_iff",
    "Xolotl.Network.Species.loop_range",
    "Xolotl.Network.Species.loop_endless",
    "Xolotl.Network.Species.all_species",
    "Xolotl.Network.Species.noI_species",
    "Xolotl.Network.Species.noI_exact_iff",
    "Xolotl.Network.Species.noI_exact_networks",
    "Xolotl.Network.Species.noI_misses",
    "Xolotl.Network.Species.cast_id",
    "Xolotl.Network.Species.cast_invalid",
    "Xolotl.Network.Species.id_walk",
    "Xolotl.Network.Species.moment_in_range",
    "Xolotl.Network.Species.group_range",
    "Xolotl.Network.Species.isVacancy_labels",
    "Xolotl.Network.Species.isVacancy_basal"
   ],
   "note": "Proved in full for the range of all species and for ids. The range without interstitials visits the species up to the first vacancy species; that is all non-interstitial ones exactly for lists with one vacancy species (noI_exact_iff), so the claim fails for the Zr and Alloy networks (noI_misses)."
  },
  {
   "property": "C48",
   "status": "partial",
   "theorems": [
    "Xolotl.Network.Bursting.no_gas",
    "Xolotl.Network.Bursting.released",
    "Xolotl.Network.Bursting.released_content",
    "Xolotl.Network.Bursting.vacancies",
    "Xolotl.Network.Bursting.vacancies_kept_partial",
    "Xolotl.Network.Bursting.transfer_group",
    "Xolotl.Network.Bursting.defined",
    "Xolotl.Network.Bursting.grouped_vacancies_lost",
    "Xolotl.Network.Bursting.grouped_interstitials_undefined",
    "Xolotl.Network.Bursting.moment_lost",
    "Xolotl.Network.Bursting.factor_zero",
    "Xolotl.Network.Bursting.tritium_as_deuterium"
   ],
   "note": "No gas remains and the released amount is the total of the atoms before, for every vector and every network that does not group vacancy clusters together with gas. The vacancy content changes by exactly the first moments along the vacancy axis in networks whose vacancy clusters are not grouped; it is lost from grouped vacancy clusters, and grouped interstitials use the invalid cluster (all proved with witnesses). In 2D and 3D the account is called with the factor 0; in the tritium network it is read from the wrong entry."
  },
  {
   "property": "C49",
   "status": "proved",
   "theorems": [
    "Xolotl.Network.Totals.totalConcentration_eq",
    "Xolotl.Network.Totals.totalAtoms_eq",
    "Xolotl.Network.Totals.totalRadius_eq",
    "Xolotl.Network.Totals.totalTrapped_eq",
    "Xolotl.Network.Totals.totals_linear",
    "Xolotl.Network.Totals.totals_mono",
    "Xolotl.Network.Totals.totals_additive",
    "Xolotl.Network.Totals.concentration_exact",
    "Xolotl.Network.Totals.atoms_gap",
    "Xolotl.Network.Totals.atoms_exact",
    "Xolotl.Network.Totals.exact_from",
    "Xolotl.Network.Totals.atoms_wrong",
    "Xolotl.Network.Totals.trapped_mixed",
    "Xolotl.Network.Totals.totalsImpl_eq",
    "Xolotl.Network.Totals.getTotalsVec_eq",
    "Xolotl.Network.Totals.seven_rejected"
   ],
   "note": "The totals of concentration, radius, atoms and trapped atoms, singly and several at once; each is a sum over compositions. Exact for ungrouped networks; for grouped ones the atoms omit exactly the first moments. The ratio functions (volume ratio and its variance) are not totals and not covered."
  },
  {
   "property": "C58",
   "status": "partial",
   "theorems": [
    "Xolotl.Network.Rates.sphere_symm",
    "Xolotl.Network.Rates.alloy_symm",
    "Xolotl.Network.Rates.zr_symm_partial",
    "Xolotl.Network.Rates.zr_mobile_small",
    "Xolotl.Network.Rates.zr_pair_symm",
    "Xolotl.Network.Rates.zr_asymmetric",
    "Xolotl.Network.Rates.sphere_pos",
    "Xolotl.Network.Rates.alloyLoop_pos",
    "Xolotl.Network.Rates.alloy_pos",
    "Xolotl.Network.Rates.efficiency_pos",
    "Xolotl.Network.Rates.zrLoopRate_pos",
    "Xolotl.Network.Rates.zr_pos",
    "Xolotl.Network.Rates.zr_immobile_undefined",
    "Xolotl.Network.Rates.sphere_reverse",
    "Xolotl.Network.Rates.alloy_reverse",
    "Xolotl.Network.Rates.zr_reverse",
    "Xolotl.Network.Rates.mass_action",
    "Xolotl.Network.Rates.kMinus_anti",
    "Xolotl.Network.Rates.kMinus_mono",
    "Xolotl.Network.Rates.alloyBinding_bounds",
    "Xolotl.Network.Rates.alloy_slower",
    "Xolotl.Network.Rates.increments",
    "Xolotl.Network.Rates.alloyBinding_mono",
    "Xolotl.Network.Rates.zrSink_pos",
    "Xolotl.Network.Rates.arrhenius_law",
    "Xolotl.Network.Rates.arrhenius_order",
    "Xolotl.Network.Rates.profile_slope",
    "Xolotl.Network.Rates.sphere_flux",
    "Xolotl.Network.Rates.core_flux",
    "Xolotl.Network.Rates.alloy_loop",
    "Xolotl.Network.Rates.efficiency_isotropic",
    "Xolotl.Network.Rates.zr_loop",
    "Xolotl.Network.Rates.increment_three",
    "Xolotl.Network.Rates.alloyBinding_fit",
    "Xolotl.Network.Rates.zr_mobile",
    "Xolotl.Network.Rates.zrSink_large"
   ],
   "note": "Symmetry, positivity, reverse rates and monotonicity for the spherical, alloy and zirconium rates. Partial: the zirconium rate of two loops is not symmetric (zr_asymmetric); two loops never react because loops do not move (zr_pair_symm). Binding energies of the zirconium and tungsten networks are parameters here."
  },
  {
   "property": "C59",
   "status": "partial",
   "theorems": [
    "Xolotl.Network.NeFile.entry_defined",
    "Xolotl.Network.NeFile.entry_lowest",
    "Xolotl.Network.NeFile.diffusivity_bounds",
    "Xolotl.Network.NeFile.pairRate_eq",
    "Xolotl.Network.NeFile.pairRate_symm",
    "Xolotl.Network.NeFile.productRate_eq",
    "Xolotl.Network.NeFile.productRate_symm",
    "Xolotl.Network.NeFile.tables_symm",
    "Xolotl.Network.NeFile.last_line",
    "Xolotl.Network.NeFile.last_line_none",
    "Xolotl.Network.NeFile.file_balance",
    "Xolotl.Network.NeFile.sink_balance",
    "Xolotl.Network.NeFile.recombination_unbalanced",
    "Xolotl.Network.NeFile.recombination_unmapped",
    "Xolotl.Network.NeFile.coefficient_eq",
    "Xolotl.Network.NeFile.reverse_outside",
    "Xolotl.Network.NeFile.switched_off",
    "Xolotl.Network.NeFile.first_radius",
    "Xolotl.Network.NeFile.unlisted",
    "Xolotl.Network.NeFile.link_law",
    "Xolotl.Network.NeFile.coefficient_law",
    "Xolotl.Network.NeFile.sink_bias"
   ],
   "note": "Productions, dissociations and sinks are balanced for every file. False for the thermal source of the recombination: its exponent multiplies by the temperature (recombination_unbalanced). A reaction switched off in the file keeps its computed rate (switched_off)."
  },
  {
   "property": "C56",
   "status": "partial",
   "theorems": [
    "Xolotl.Solver.Stride.step_spec",
    "Xolotl.Solver.Stride.run_window",
    "Xolotl.Solver.Stride.run_lower",
    "Xolotl.Solver.Stride.run_count",
    "Xolotl.Solver.Stride.every_step",
    "Xolotl.Solver.Stride.backlog",
    "Xolotl.Solver.Stride.move_backlog",
    "Xolotl.Solver.Stride.first_step",
    "Xolotl.Solver.Stride.restart_same",
    "Xolotl.Solver.Stride.restart_count",
    "Xolotl.Solver.Stride.restart_extra",
    "Xolotl.Solver.Stride.zero_stride"
   ],
   "note": "Proved for steps no longer than the stride. After a longer step the counter lags and every short step is written until it has caught up (backlog), and likewise after the surface moved (move_backlog). A restart right after an early checkpoint writes one checkpoint more (restart_extra). The range of PetscInt is not modelled."
  },
  {
   "property": "C62",
   "status": "partial",
   "theorems": [
    "Xolotl.Util.LineLoop.tokens_nil",
    "Xolotl.Util.LineLoop.plain_iff",
    "Xolotl.Util.LineLoop.clusters_iff",
    "Xolotl.Util.LineLoop.text_pieces",
    "Xolotl.Util.LineLoop.pieces_text",
    "Xolotl.Util.LineLoop.reactions_read",
    "Xolotl.Util.LineLoop.reactions_endless",
    "Xolotl.Util.LineLoop.single_endless",
    "Xolotl.Util.LineLoop.carriage_return",
    "Xolotl.Util.LineLoop.custom_ends",
    "Xolotl.Util.LineLoop.custom_read",
    "Xolotl.Util.LineLoop.custom_rejected"
   ],
   "note": "What is read, and when reading ends, is characterised for every text. The property is false: without a final line break the reaction file is read forever (reactions_endless) and the custom flux is rejected (custom_rejected). The contract of std::getline is assumed."
  },
  {
   "property": "C60",
   "status": "partial",
   "theorems": [
    "Xolotl.Network.Psi.maxHePerV_mono",
    "Xolotl.Network.Psi.maxHePerV_pos",
    "Xolotl.Network.Psi.select_point",
    "Xolotl.Network.Psi.select_group",
    "Xolotl.Network.Psi.select_group_lost",
    "Xolotl.Network.Psi.select_group_over",
    "Xolotl.Network.Psi.select_flags",
    "Xolotl.Network.Psi.hev_num",
    "Xolotl.Network.Psi.formation_num",
    "Xolotl.Network.Psi.interstitial_bound",
    "Xolotl.Network.Psi.helium_bound",
    "Xolotl.Network.Psi.helium_bound_fit",
    "Xolotl.Network.Psi.vacancy_bound_fit",
    "Xolotl.Network.Psi.look_pos",
    "Xolotl.Network.Psi.table_one",
    "Xolotl.Network.Psi.table_two_partial",
    "Xolotl.Network.Psi.table_two_outside",
    "Xolotl.Network.Psi.hydrogen_one",
    "Xolotl.Network.Psi.lower_holds",
    "Xolotl.Network.Psi.interpolated_spec",
    "Xolotl.Network.Psi.gas_emission_interpolated",
    "Xolotl.Network.Psi.binding_ge",
    "Xolotl.Network.Psi.boundary_binding",
    "Xolotl.Network.Psi.he_nine",
    "Xolotl.Network.Psi.useTable_iff",
    "Xolotl.Network.Psi.interpolated_narrow"
   ],
   "note": "Selection is exact on compositions and loses none in groups for ratios up to nine (lost with larger ones, `select_group_lost`; empty groups can be selected, `select_group_over`). False: the table for two vacancies is read outside for twelve hydrogen atoms (`table_two_outside`), the emission of gas from bubbles with one gas atom takes the energy of a vacancy (`gas_emission_interpolated`), clusters of more than eight helium atoms give -5 and NaN (`he_nine`), and the first cluster treated as grouped has a whole formation energy as binding energy (`boundary_binding`)."
  },
  {
   "property": "C64",
   "status": "partial",
   "theorems": [
    "Xolotl.Network.Select.neSelect_point",
    "Xolotl.Network.Select.neSelect_group",
    "Xolotl.Network.Select.neSelect_group_lost",
    "Xolotl.Network.Select.neRefine_inside",
    "Xolotl.Network.Select.neRefine_small",
    "Xolotl.Network.Select.neRefine_axis",
    "Xolotl.Network.Select.feSelect_point",
    "Xolotl.Network.Select.feSelect_group",
    "Xolotl.Network.Select.zrSelect_point",
    "Xolotl.Network.Select.zrSelect_group",
    "Xolotl.Network.Select.zrRefine_small",
    "Xolotl.Network.Select.zrRefine_top",
    "Xolotl.Network.Select.alloySelect_point",
    "Xolotl.Network.Select.alloySelect_group",
    "Xolotl.Network.Select.alloySelect_group_lost",
    "Xolotl.Network.Select.alloyRefine_small",
    "Xolotl.Network.Select.narrow_flag",
    "Xolotl.Network.Select.zrRefine_axis",
    "Xolotl.Network.Select.zr_beyond",
    "Xolotl.Network.Select.alloy_beyond",
    "Xolotl.Network.Select.alloyRefine_axis"
   ],
   "note": "Exact on single compositions for all four networks.  Groups: iron and zirconium always; fuel except groups that start at one xenon atom and reach beyond eight vacancies (`neSelect_group_lost`); alloys except regions at the origin that hold single defects (`alloySelect_group_lost`).  `refine` of iron is part of C69; how the subdivision library uses the answers is not modelled."
  },
  {
   "property": "C63",
   "status": "partial",
   "theorems": [
    "Xolotl.Network.Radius.psi_volume",
    "Xolotl.Network.Radius.psi_mono",
    "Xolotl.Network.Radius.psi_one",
    "Xolotl.Network.Radius.psiV_zero",
    "Xolotl.Network.Radius.psiRadius_pos",
    "Xolotl.Network.Radius.psiRadius_groupI",
    "Xolotl.Network.Radius.psiRadius_groupV",
    "Xolotl.Network.Radius.psiRadius_between",
    "Xolotl.Network.Radius.psi_mobile",
    "Xolotl.Network.Radius.psi_migration",
    "Xolotl.Network.Radius.psi_group_mobility",
    "Xolotl.Network.Radius.psi_group_small",
    "Xolotl.Network.Radius.ne_volume",
    "Xolotl.Network.Radius.neRadius_spec",
    "Xolotl.Network.Radius.fe_volume",
    "Xolotl.Network.Radius.feRadius_spec",
    "Xolotl.Network.Radius.fe_mobile",
    "Xolotl.Network.Radius.zr_volume",
    "Xolotl.Network.Radius.zr_basal",
    "Xolotl.Network.Radius.zrRadius_group_partial",
    "Xolotl.Network.Radius.zrRadius_straddles",
    "Xolotl.Network.Radius.zrRadius_pos",
    "Xolotl.Network.Radius.zr_mobile",
    "Xolotl.Network.Radius.alloy_volume",
    "Xolotl.Network.Radius.alloy_mono",
    "Xolotl.Network.Radius.alloyRadius_group",
    "Xolotl.Network.Radius.alloyRadius_pos",
    "Xolotl.Network.Radius.alloy_mobile",
    "Xolotl.Network.Radius.alloyDiffusion_value",
    "Xolotl.Network.Radius.alloyDiffusion_group",
    "Xolotl.Network.Radius.psi_axis_mobility",
    "Xolotl.Network.Radius.psi_six_faster",
    "Xolotl.Network.Radius.ne_axis_radius",
    "Xolotl.Network.Radius.fe_axis_mobility",
    "Xolotl.Network.Radius.alloy_kinds",
    "Xolotl.Network.Radius.psi_helium_values"
   ],
   "note": "Radii: everything for tungsten, fuel, iron and alloys; in zirconium groups across the change from balls to loops, or across the transition of basal clusters, take the shape of their smallest member (`zrRadius_straddles`).  Mobility: lists are exact; the means over groups hold for tungsten from six interstitials on (`psi_group_small`), and alloy groups have the factor of their smallest member (`alloyDiffusion_group`).  Perfect loops of seventy and more and nine interstitials in zirconium have a migration energy but do not move.  Real numbers instead of doubles."
  },
  {
   "property": "C57",
   "status": "partial",
   "theorems": [
    "Xolotl.Flux.Custom.readRows_render",
    "Xolotl.Flux.Custom.readRows_bad",
    "Xolotl.Flux.Custom.setup_defined",
    "Xolotl.Flux.Custom.recompute_setup",
    "Xolotl.Flux.Custom.custom_integral",
    "Xolotl.Flux.Custom.norm_pos_iff",
    "Xolotl.Flux.Custom.instant_total",
    "Xolotl.Flux.Custom.row_lost",
    "Xolotl.Flux.Custom.pulsed_spec",
    "Xolotl.Flux.Custom.pulsed_zero",
    "Xolotl.Flux.Custom.pulsed_profile",
    "Xolotl.Flux.Custom.fitOf_eq",
    "Xolotl.Flux.Custom.sync_entry"
   ],
   "note": "Reading, the implanted amount for every history and order, and pulses are proved; it fails for rows whose profile misses every cell (row_lost), without rows or a grid (setup_defined) and for pulses without amplitude or with a time profile (pulsed_zero, pulsed_profile).  The conversion of tokens to numbers and the lookup of clusters are parameters."
  },
  {
   "property": "C61",
   "status": "partial",
   "theorems": [
    "Xolotl.Solver.Retention.surface_agree",
    "Xolotl.Solver.Retention.runLoop_left",
    "Xolotl.Solver.Retention.runLoop_skip",
    "Xolotl.Solver.Retention.restart_same",
    "Xolotl.Solver.Retention.solve3_total",
    "Xolotl.Solver.Retention.solve_first_last",
    "Xolotl.Solver.Retention.solve_total_partial",
    "Xolotl.Solver.Retention.moves_lose",
    "Xolotl.Solver.Retention.burst_last",
    "Xolotl.Solver.Retention.outgoing_eq",
    "Xolotl.Solver.Retention.balance_partial",
    "Xolotl.Solver.Retention.balance_neighbour",
    "Xolotl.Solver.Retention.balance_widening"
   ],
   "note": "Proved for one loop, for restarts and for three dimensions. In one and two dimensions from the second move on the loops between are lost (solve_first_last, moves_lose). The balance holds on uniform grids with a uniform diffusion coefficient (balance_partial); otherwise not (balance_neighbour, balance_widening). Advection is part of the given fluxes. Only the surface is modelled in code form; the bottom is kept in the same way."
  },
  {
   "property": "C65",
   "status": "partial",
   "theorems": [
    "Xolotl.Solver.Events.event_spec",
    "Xolotl.Solver.Events.event_repeat",
    "Xolotl.Solver.Events.event_exclusive",
    "Xolotl.Solver.Events.decision_spec",
    "Xolotl.Solver.Events.never_throws",
    "Xolotl.Solver.Events.back_least",
    "Xolotl.Solver.Events.back_ends",
    "Xolotl.Solver.Events.back_overrun",
    "Xolotl.Solver.Events.reported",
    "Xolotl.Solver.Events.quiet_total",
    "Xolotl.Solver.Events.growth_balance",
    "Xolotl.Solver.Events.erosion_balance",
    "Xolotl.Solver.Events.erosion_balance_partial",
    "Xolotl.Solver.Events.handed_first",
    "Xolotl.Solver.Events.handed_wrong",
    "Xolotl.Solver.Events.bursts_iff",
    "Xolotl.Solver.Events.bursts_large",
    "Xolotl.Solver.Events.bursts_shallow",
    "Xolotl.Solver.Events.bursts_no_flux",
    "Xolotl.Solver.Events.bursts_mono",
    "Xolotl.Solver.Events.radius_mono",
    "Xolotl.Solver.Events.radius_one",
    "Xolotl.Solver.Events.radius_zero",
    "Xolotl.Solver.Events.bursts_empty",
    "Xolotl.Solver.Events.clamp_large",
    "Xolotl.Solver.Events.clamp_sign",
    "Xolotl.Solver.Events.clamp_close",
    "Xolotl.Solver.Events.happened_mem"
   ],
   "note": "The balance of interstitials holds for loops that end with growth, and with erosion if the last cell taken has the size of the cell above the surface (erosion_balance_partial); over several loops it fails, as every loop from the third on begins with the account at the end of the first (handed_first, handed_wrong). Erosion past the end of the grid reads outside it (back_overrun)."
  },
  {
   "property": "C66",
   "status": "partial",
   "theorems": [
    "Xolotl.Solver.Sweep.calls_partial",
    "Xolotl.Solver.Sweep.calls_fixed",
    "Xolotl.Solver.Sweep.calls_interior",
    "Xolotl.Solver.Sweep.calls_surface",
    "Xolotl.Solver.Sweep.calls_bulk",
    "Xolotl.Solver.Sweep.evaluate_sync",
    "Xolotl.Solver.Sweep.evaluations_fresh",
    "Xolotl.Solver.Sweep.evaluate_quiet",
    "Xolotl.Solver.Sweep.evaluations_shared",
    "Xolotl.Solver.Sweep.depths_next",
    "Xolotl.Solver.Sweep.surface_index",
    "Xolotl.Solver.Sweep.above_undefined",
    "Xolotl.Solver.Sweep.tables_same_partial",
    "Xolotl.Solver.Sweep.tables_differ",
    "Xolotl.Solver.Sweep.select_unique",
    "Xolotl.Solver.Sweep.select_once"
   ],
   "note": "The part on stale temperatures is proved. The heat equation is applied twice at reflecting boundaries and not at all on grain boundaries (calls_surface, calls_bulk, calls_interior). Trap mutation uses the temperature of the point above the surface, and on each process its own (surface_index, tables_differ); the tables only differ across 1066.5 K (tables_same_partial)."
  },
  {
   "property": "C67",
   "status": "partial",
   "theorems": [
    "Xolotl.Options.Lists.fill_eq",
    "Xolotl.Options.Lists.temp_spec",
    "Xolotl.Options.Lists.grid_spec",
    "Xolotl.Options.Lists.boundaries_spec",
    "Xolotl.Options.Lists.boundaries_single",
    "Xolotl.Options.Lists.coupling_spec",
    "Xolotl.Options.Lists.coupling_rejects",
    "Xolotl.Options.Lists.steps_zero",
    "Xolotl.Options.Lists.pulse_spec",
    "Xolotl.Options.Lists.pulse_undefined",
    "Xolotl.Options.Lists.grouping_spec",
    "Xolotl.Options.Lists.grouping_undefined",
    "Xolotl.Options.Lists.setRadius_calls",
    "Xolotl.Options.Lists.minSizes_spec",
    "Xolotl.Options.Lists.minSizes_agree",
    "Xolotl.Options.Lists.rng_seed",
    "Xolotl.Options.Lists.rng_undefined",
    "Xolotl.Options.Lists.rng_negative",
    "Xolotl.Options.Lists.rng_rejects",
    "Xolotl.Options.Lists.rankSeed_distinct",
    "Xolotl.Options.Lists.rankSeed_reproducible",
    "Xolotl.Options.Lists.rankSeed_value",
    "Xolotl.Options.Lists.forms_agree",
    "Xolotl.Options.Lists.forms_differ",
    "Xolotl.Options.Lists.checkSet_read",
    "Xolotl.Options.Lists.checkSet_absent",
    "Xolotl.Options.Lists.checkSet_ignored",
    "Xolotl.Options.Lists.petsc_words",
    "Xolotl.Options.Lists.petsc_text_lost",
    "Xolotl.Options.Lists.initial_spec",
    "Xolotl.Options.Lists.initial_complete",
    "Xolotl.Options.Lists.initial_missing",
    "Xolotl.Options.Lists.place_spec",
    "Xolotl.Options.Lists.place_distinct",
    "Xolotl.Options.Lists.place_lost",
    "Xolotl.Options.Lists.point_spec",
    "Xolotl.Options.Lists.admitted_iff",
    "Xolotl.Options.Lists.admitted_other"
   ],
   "note": "What is accepted is kept exactly, and both notations agree for integers.  Not everything wrong is reported: short lists of boundaries, pulses, groups, seeds and initial concentrations (`boundaries_single`, `pulse_undefined`, `grouping_undefined`, `rng_undefined`, `initial_missing`), unreadable single values (`checkSet_ignored`), arguments given as a text (`petsc_text_lost`).  Requests for one group do not add up (`place_lost`).  Reading `double` is a parameter; the property tree library is modelled by the texts of a node and of its children."
  },
  {
   "property": "C68",
   "status": "partial",
   "theorems": [
    "Xolotl.Solver.Coupled.zr_line",
    "Xolotl.Solver.Coupled.alloy_line",
    "Xolotl.Solver.Coupled.diameter_between",
    "Xolotl.Solver.Coupled.partial_le",
    "Xolotl.Solver.Coupled.meaning_ranks",
    "Xolotl.Solver.Coupled.diameter_sum",
    "Xolotl.Solver.Coupled.counted_all",
    "Xolotl.Solver.Coupled.rates_spec",
    "Xolotl.Solver.Coupled.rates_zero",
    "Xolotl.Solver.Coupled.localSize_eq",
    "Xolotl.Solver.Coupled.localSize_two",
    "Xolotl.Solver.Coupled.solve_order",
    "Xolotl.Solver.Coupled.roundTo_error",
    "Xolotl.Solver.Coupled.roundTo_lt",
    "Xolotl.Solver.Coupled.run_appends",
    "Xolotl.Solver.Coupled.run_zero",
    "Xolotl.Solver.Coupled.labels_increase",
    "Xolotl.Solver.Coupled.run_later",
    "Xolotl.Solver.Coupled.restart_reached",
    "Xolotl.Solver.Coupled.restart_line",
    "Xolotl.Solver.Coupled.small_steps",
    "Xolotl.Solver.Coupled.lastStep_eq",
    "Xolotl.Solver.Coupled.asserts_unlimited",
    "Xolotl.Solver.Coupled.asserts_limited",
    "Xolotl.Solver.Coupled.names_roundtrip",
    "Xolotl.Solver.Coupled.checkpointName_inj",
    "Xolotl.Solver.Coupled.restart_files",
    "Xolotl.Solver.Coupled.addAt_spec"
   ],
   "note": "The solver of a sub-instance and the rates of the primary network are parameters (the latter are C19).  Missing because the code does not do it: header and single lines for runs that begin at another time, a mean below 1e-16, lines of times below 5e-15; the file after a restart holds one line twice.  Formatting of numbers (5 digits) and the MPI reduction are not modelled."
  },
  {
   "property": "C69",
   "status": "partial",
   "theorems": [
    "Xolotl.Network.Psi.refine_true",
    "Xolotl.Network.Psi.grouped_positive",
    "Xolotl.Network.Psi.same_species",
    "Xolotl.Network.Psi.none_lost",
    "Xolotl.Network.Psi.capacity",
    "Xolotl.Network.Psi.hydrogen_over",
    "Xolotl.Network.Psi.below_min",
    "Xolotl.Network.Psi.pure_vacancies",
    "Xolotl.Network.Psi.bubble_grouped",
    "Xolotl.Network.Psi.bubble_deuterium",
    "Xolotl.Network.Psi.bubble_tritium",
    "Xolotl.Network.Psi.hydrogen_uniform",
    "Xolotl.Network.Psi.interstitial_grouped",
    "Xolotl.Network.Psi.vacancy_grouped",
    "Xolotl.Network.Psi.below_min_grouped",
    "Xolotl.Network.Psi.sizes_partial",
    "Xolotl.Network.Psi.pure_beyond",
    "Xolotl.Network.Psi.widths",
    "Xolotl.Network.Psi.edge_uniform",
    "Xolotl.Network.Select.fe_grouped",
    "Xolotl.Network.Select.fe_grouped_iff",
    "Xolotl.Network.Select.fe_sizes"
   ],
   "note": "A region counts as subdivided no more when every axis flagged for refinement holds one amount; that the absent subdivision library stops there, and not before, is assumed.  Proved for all options with a minimum for grouping of at least one: same species, nothing lost (ratio at most nine), helium capacity, sizes, widths.  Not true of the code, with witnesses: hydrogen limits away from the helium edge, the maximum and the minimum for pure vacancy clusters beyond the bubbles in networks with gas.  In the iron network the bound computed with roots and a logarithm is a parameter."
  },
  {
   "property": "C70",
   "status": "partial",
   "theorems": [
    "Xolotl.Solver.Surface.roomAbove_true",
    "Xolotl.Solver.Surface.up_done",
    "Xolotl.Solver.Surface.up_outside",
    "Xolotl.Solver.Surface.line_grows",
    "Xolotl.Solver.Surface.top_outside",
    "Xolotl.Solver.Surface.back_done",
    "Xolotl.Solver.Surface.line_atoms",
    "Xolotl.Solver.Surface.line_stays",
    "Xolotl.Solver.Surface.sweep_atoms",
    "Xolotl.Solver.Surface.sweep_left",
    "Xolotl.Solver.Surface.minSurf_spec",
    "Xolotl.Solver.Surface.minSurf3_outside",
    "Xolotl.Solver.Surface.grown_atoms",
    "Xolotl.Solver.Surface.left_others",
    "Xolotl.Solver.Surface.left_itself",
    "Xolotl.Solver.Surface.receded",
    "Xolotl.Solver.Surface.receded_again",
    "Xolotl.Solver.Surface.reports_eq",
    "Xolotl.Solver.Surface.reported_moves_partial",
    "Xolotl.Solver.Surface.reported_stays",
    "Xolotl.Solver.Surface.moved_unreported",
    "Xolotl.Solver.Surface.account2",
    "Xolotl.Solver.Surface.account3",
    "Xolotl.Solver.Surface.sides_one",
    "Xolotl.Solver.Surface.sides_all",
    "Xolotl.Solver.Surface.filled_exact",
    "Xolotl.Solver.Surface.emptied_exact",
    "Xolotl.Solver.Surface.warm_spec"
   ],
   "note": "Proved for all grids: how far a line moves, that it keeps its atoms while the grid stays, which points are overwritten.  Missing because the code does not do it: growth at the top of the grid (reads outside), atoms when the grid is changed, the smallest position in three dimensions, sputtering in three dimensions, side faces higher than one point, erosion with very different cells."
  },
  {
   "property": "C71",
   "status": "partial",
   "theorems": [
    "Xolotl.Solver.Lines.flux_trapped",
    "Xolotl.Solver.Lines.jacobian_trapped",
    "Xolotl.Solver.Lines.consistent_partial",
    "Xolotl.Solver.Lines.jacobian_mixes",
    "Xolotl.Solver.Lines.jacobian_exceeds",
    "Xolotl.Solver.Lines.jacobian_waits",
    "Xolotl.Solver.Lines.split_equal",
    "Xolotl.Solver.Lines.split_sum",
    "Xolotl.Solver.Lines.last_line",
    "Xolotl.Solver.Lines.network_same",
    "Xolotl.Solver.Lines.rates_partial",
    "Xolotl.Solver.Lines.rates_other",
    "Xolotl.Solver.Lines.again_one",
    "Xolotl.Solver.Lines.again_three",
    "Xolotl.Solver.Lines.yFraction_zero",
    "Xolotl.Solver.Lines.yPosition_zero",
    "Xolotl.Solver.Lines.renewed_inside",
    "Xolotl.Solver.Lines.renewed_line",
    "Xolotl.Solver.Lines.renewed_lost",
    "Xolotl.Solver.Lines.renewed_surface",
    "Xolotl.Solver.Lines.renewed_initial",
    "Xolotl.Solver.Lines.skipped2_iff",
    "Xolotl.Solver.Lines.skipped3_count",
    "Xolotl.Solver.Lines.ownsRead_iff",
    "Xolotl.Solver.Lines.ownsRead_divided"
   ],
   "note": "Proved for all grids and divisions: the right hand side, the Jacobian when lines are not divided, equal temperatures on all lines, interpolation on the same line.  Missing because the code does not do it: the Jacobian for divided lines, different temperatures of lines, repeated evaluation with several lines, the lines with coordinate 0 after a change of the grid."
  },
  {
   "property": "C72",
   "status": "partial",
   "theorems": [
    "Xolotl.Flux.Defects.attenuation_off",
    "Xolotl.Flux.Defects.attenuation_bounds",
    "Xolotl.Flux.Defects.attenuation_decreasing",
    "Xolotl.Flux.Defects.attenuation_half",
    "Xolotl.Flux.Defects.attenuation_mirror",
    "Xolotl.Flux.Defects.profile_used",
    "Xolotl.Flux.Defects.profile_ignored",
    "Xolotl.Flux.Defects.constant_used",
    "Xolotl.Flux.Defects.available_eq",
    "Xolotl.Flux.Defects.available_sign",
    "Xolotl.Flux.Defects.fuel_pairs",
    "Xolotl.Flux.Defects.fuel_again",
    "Xolotl.Flux.Defects.fuel_skipped",
    "Xolotl.Flux.Defects.fuel_missing",
    "Xolotl.Flux.Defects.fuel_negative",
    "Xolotl.Flux.Defects.fuel_depends",
    "Xolotl.Flux.Defects.addRow_pure",
    "Xolotl.Flux.Defects.addRow_other",
    "Xolotl.Flux.Defects.weight_bounds",
    "Xolotl.Flux.Defects.factorsOf_inside",
    "Xolotl.Flux.Defects.factorsOf_two",
    "Xolotl.Flux.Defects.iron_balance",
    "Xolotl.Flux.Defects.iron_never_throws",
    "Xolotl.Flux.Defects.damage_eq",
    "Xolotl.Flux.Defects.generation_getD",
    "Xolotl.Flux.Defects.generation_length",
    "Xolotl.Flux.Defects.writes_outside",
    "Xolotl.Flux.Defects.writes_inside_0D",
    "Xolotl.Flux.Defects.alloyBin_rate",
    "Xolotl.Flux.Defects.alloy_total",
    "Xolotl.Flux.Defects.alloy_pairs_partial",
    "Xolotl.Flux.Defects.alloy_unequal",
    "Xolotl.Flux.Defects.cascade_tables",
    "Xolotl.Flux.Defects.zr_again",
    "Xolotl.Flux.Defects.boltzmann"
   ],
   "note": "Holds: attenuation between efficiency and 1, decreasing, half way at the given dose; fuel and alloy make pairs when all clusters exist. Fails: time profile ignored outside the base class, alloy drops sizes without clusters, iron unbalanced, zirconium multiplied by the number of initialisations, reads and writes outside vectors."
  },
  {
   "property": "C73",
   "status": "partial",
   "theorems": [
    "Xolotl.Network.Pairs.alloy_symm",
    "Xolotl.Network.Pairs.zr_symm",
    "Xolotl.Network.Pairs.alloy_exact_partial",
    "Xolotl.Network.Pairs.alloy_recombine_partial",
    "Xolotl.Network.Pairs.alloy_immobile",
    "Xolotl.Network.Pairs.alloy_diss",
    "Xolotl.Network.Pairs.alloy_pf_sound_partial",
    "Xolotl.Network.Pairs.alloy_pf_never",
    "Xolotl.Network.Pairs.alloy_once_partial",
    "Xolotl.Network.Pairs.alloy_limit_ii",
    "Xolotl.Network.Pairs.alloy_limit_vp",
    "Xolotl.Network.Pairs.alloy_il_lost",
    "Xolotl.Network.Pairs.alloy_half",
    "Xolotl.Network.Pairs.alloy_sinks",
    "Xolotl.Network.Pairs.zr_sinks",
    "Xolotl.Network.Pairs.zr_exact",
    "Xolotl.Network.Pairs.zr_recombine",
    "Xolotl.Network.Pairs.zr_immobile",
    "Xolotl.Network.Pairs.zr_diss",
    "Xolotl.Network.Pairs.zr_basal9",
    "Xolotl.Network.Pairs.zr_basal9_stuck",
    "Xolotl.Network.Pairs.optNet_singles"
   ],
   "note": "Zirconium: all productions and dissociations exactly, except that the basal cluster of size 9 cannot dissociate without a vacancy cluster of that size.  Alloys: all pairs except perfect loops with faulted loops and voids, whose loop is wrong (`alloy_pf_never`).  The rates of a pair of single clusters add up to one collision except in the cases of `alloy_limit_ii`, `alloy_limit_vp`, `alloy_il_lost`, `alloy_half`.  Constant reactions of the same functions are C19."
  },
  {
   "property": "C74",
   "status": "partial",
   "theorems": [
    "Xolotl.Network.Dispatch.psi_exact_partial",
    "Xolotl.Network.Dispatch.psi_annihilation",
    "Xolotl.Network.Dispatch.psi_symm",
    "Xolotl.Network.Dispatch.psi_immobile",
    "Xolotl.Network.Dispatch.psi_straddle_none",
    "Xolotl.Network.Dispatch.psi_diss",
    "Xolotl.Network.Dispatch.psi_emission",
    "Xolotl.Network.Dispatch.psi_second_conditions",
    "Xolotl.Network.Dispatch.psi_second_conserves",
    "Xolotl.Network.Dispatch.modified_length",
    "Xolotl.Network.Dispatch.modified_order",
    "Xolotl.Network.Dispatch.modified_missing",
    "Xolotl.Network.Dispatch.psi_sinks",
    "Xolotl.Network.Dispatch.fe_exact_partial",
    "Xolotl.Network.Dispatch.fe_annihilation",
    "Xolotl.Network.Dispatch.fe_symm",
    "Xolotl.Network.Dispatch.fe_diss",
    "Xolotl.Network.Dispatch.fe_sinks",
    "Xolotl.Network.Dispatch.ne_exact_partial",
    "Xolotl.Network.Dispatch.ne_annihilation",
    "Xolotl.Network.Dispatch.ne_symm",
    "Xolotl.Network.Dispatch.ne_interstitials",
    "Xolotl.Network.Dispatch.ne_interstitials_witness",
    "Xolotl.Network.Dispatch.ne_diss",
    "Xolotl.Network.Dispatch.ne_sinks",
    "Xolotl.Network.Dispatch.ne_resolution",
    "Xolotl.Network.Dispatch.straddle_witness"
   ],
   "note": "Products are exact except for an interstitial cluster with a group of which only some members have enough vacancies (no reaction, proved) and, in fuel, for two interstitial clusters (no reaction, proved). Dissociation conditions, annihilation, symmetry, sinks and re-solution are exact. Look-ups of the absent library plsm are modelled as a search among disjoint regions; the layout of the regions is a hypothesis (compare C60, C64, C69)."
  },
  {
   "property": "C75",
   "status": "partial",
   "theorems": [
    "Xolotl.Network.Dispatch.rxns_sum",
    "Xolotl.Network.Dispatch.rxns_content",
    "Xolotl.Network.Dispatch.prod_conserves",
    "Xolotl.Network.Dispatch.diss_conserves",
    "Xolotl.Network.Dispatch.fe_network_partial",
    "Xolotl.Network.Dispatch.ne_network_partial",
    "Xolotl.Network.Dispatch.psi_network_partial",
    "Xolotl.Network.Dispatch.single_content",
    "Xolotl.Network.Dispatch.two_axes_witness",
    "Xolotl.Network.Dispatch.flipped_witness",
    "Xolotl.Network.Dispatch.mutations_mem",
    "Xolotl.Network.Dispatch.mutations_nodup",
    "Xolotl.Network.Dispatch.mut_defined_iff",
    "Xolotl.Network.Dispatch.mut_enough",
    "Xolotl.Network.Dispatch.mutRxns_mem",
    "Xolotl.Network.Dispatch.mut_conserves",
    "Xolotl.Network.Dispatch.psi_all_network_partial",
    "Xolotl.Network.Dispatch.mut_order"
   ],
   "note": "Proved for groups along at most one axis, clusters of vacancies or interstitials alone not grouped, and (tungsten) contiguous interstitial sizes. With groups on two axes or grouped pure vacancies the statement is false for the code (two_axes_witness, flipped_witness). Modified trap mutation is part of the tungsten network when its interstitial clusters exist (mut_defined_iff, mut_enough; without them the code stores an invalid id, mut_invalid). Rates are any numbers; zirconium and alloys are C78. No generator adds nucleation reactions."
  },
  {
   "property": "C76",
   "status": "partial",
   "theorems": [
    "Xolotl.Network.Fuel.network_content_partial",
    "Xolotl.Network.Fuel.flux_difference",
    "Xolotl.Network.Fuel.annihilate_weight",
    "Xolotl.Network.Fuel.binding_range",
    "Xolotl.Network.Fuel.binding_comm",
    "Xolotl.Network.Fuel.binding_noV",
    "Xolotl.Network.Fuel.xenon_derivative",
    "Xolotl.Network.Fuel.vacancy_derivative",
    "Xolotl.Network.Fuel.binding_derivative",
    "Xolotl.Network.Fuel.pair_sum"
   ],
   "note": "Conservation proved for groups along at most one axis and ungrouped clusters of vacancies or interstitials alone (as C75, where the other layouts are shown to violate it); the energies without restriction. Rounding and the values read from the reaction file are not modelled here (C59 has the file)."
  },
  {
   "property": "C77",
   "status": "partial",
   "theorems": [
    "Xolotl.Network.Bind.zrV_mono",
    "Xolotl.Network.Bind.zrV_mono'",
    "Xolotl.Network.Bind.zrV_jump",
    "Xolotl.Network.Bind.zrV_bounds",
    "Xolotl.Network.Bind.zrI_mono",
    "Xolotl.Network.Bind.zrI_bounds",
    "Xolotl.Network.Bind.basal_mono",
    "Xolotl.Network.Bind.basal_200",
    "Xolotl.Network.Bind.zrBinding_spec",
    "Xolotl.Network.Bind.basal_nan",
    "Xolotl.Network.Bind.capture",
    "Xolotl.Network.Bind.capture_1000",
    "Xolotl.Network.Bind.fe_range",
    "Xolotl.Network.Bind.fe_undefined",
    "Xolotl.Network.Bind.fe_table",
    "Xolotl.Network.Bind.fe_trap",
    "Xolotl.Network.Bind.fe_pair",
    "Xolotl.Network.Bind.fe_vacancy",
    "Xolotl.Network.Bind.fe_helium",
    "Xolotl.Network.Bind.fe_bubble",
    "Xolotl.Network.Bind.fe_strength",
    "Xolotl.Network.Bind.fe_sinks",
    "Xolotl.Network.Bind.feBias_spec",
    "Xolotl.Network.Bind.capture_power",
    "Xolotl.Network.Bind.capture_transition",
    "Xolotl.Network.Bind.basal_middle_mono"
   ],
   "note": "The growth of zirconium's vacancy energy with size is false for the code between 924 and 925 vacancies (zrV_jump) and proved on both sides. Basal loops proved for transition sizes from 200 on (the default is 325). Numbers are reals."
  },
  {
   "property": "C78",
   "status": "partial",
   "theorems": [
    "Xolotl.Network.Pairs.zr_lattice_partial",
    "Xolotl.Network.Pairs.alloy_lattice_partial",
    "Xolotl.Network.Pairs.zr_flip",
    "Xolotl.Network.Pairs.rxns_lattice",
    "Xolotl.Network.Pairs.prod_conserves",
    "Xolotl.Network.Pairs.diss_conserves",
    "Xolotl.Network.Pairs.zr_sound",
    "Xolotl.Network.Pairs.alloy_sound"
   ],
   "note": "The conservation law of the whole network for zirconium and alloys, for every layout of groups whose meetings with mobile clusters of the opposite kind leave the reflection alone (Aligned); without that it is false (zr_flip). Regions, subpaving and rates as in C75; the sizes of alloys below 2^30; the ids of the moments are assumed distinct (Ready)."
  },
  {
   "property": "C79",
   "status": "partial",
   "theorems": [
    "Xolotl.Network.Dispatch.ready_ids",
    "Xolotl.Network.Pairs.ready_ids",
    "Xolotl.Network.Dispatch.fe_inside",
    "Xolotl.Network.Dispatch.ne_inside",
    "Xolotl.Network.Dispatch.ne_own_inside",
    "Xolotl.Network.Dispatch.psi_inside_partial",
    "Xolotl.Network.Pairs.zr_inside",
    "Xolotl.Network.Pairs.alloy_inside",
    "Xolotl.Network.Pairs.zr_network_partial",
    "Xolotl.Network.inside_of",
    "Xolotl.Network.Dispatch.psi_all_inside",
    "Xolotl.Network.Dispatch.mut_invalid",
    "Xolotl.Network.Dispatch.mut_defined_iff",
    "Xolotl.Network.Pattern.joined_inside",
    "Xolotl.Network.Pattern.zr_constant_inside",
    "Xolotl.Network.Pattern.alloy_constant_inside",
    "Xolotl.Network.constantReactions_within"
   ],
   "note": "All networks, all layouts of C75, C76 and C78 (interstitials not grouped). With modified trap mutation the statement holds exactly when no reaction holds an invalid id (psi_all_inside, mut_defined_iff) and is false otherwise (mut_invalid, B27). Zirconium and alloys also as parts of a larger network, with any constant reactions (zr_constant_inside, alloy_constant_inside)."
  },
  {
   "property": "C80",
   "status": "partial",
   "theorems": [
    "Xolotl.Solver.Grain.entries_count",
    "Xolotl.Solver.Grain.initGB_keeps",
    "Xolotl.Solver.Grain.into1_stencil_partial",
    "Xolotl.Solver.Grain.into2_stencil_partial",
    "Xolotl.Solver.Grain.into3_stencil_partial",
    "Xolotl.Solver.Grain.into_first",
    "Xolotl.Solver.Grain.into_gradient",
    "Xolotl.Solver.Grain.accounts_agree",
    "Xolotl.Solver.Grain.run_rate",
    "Xolotl.Solver.Grain.total_partial",
    "Xolotl.Solver.Grain.set_twice",
    "Xolotl.Solver.Grain.restart_forgets",
    "Xolotl.Solver.Grain.balance_partial",
    "Xolotl.Solver.Grain.balance_widening",
    "Xolotl.Solver.Grain.summed_processes",
    "Xolotl.Solver.Grain.average_between",
    "Xolotl.Solver.Grain.balance3_partial",
    "Xolotl.Solver.Grain.balance2_partial",
    "Xolotl.Solver.Grain.into3_rate"
   ],
   "note": "Flux equal to the stencil for coefficients that do not change between neighbours, balance in one, two and three dimensions on uniform grids with constant coefficients, totals for points set once. Fails, with witnesses: after a restart everything that had gone to the boundary is forgotten (B161), points set twice count twice (B162), 32-bit indices read outside at coordinate 0 (B163), gradients of temperature and widening grids (B164)."
  },
  {
   "property": "C81",
   "status": "partial",
   "theorems": [
    "Xolotl.Solver.Columns.loss",
    "Xolotl.Solver.Columns.balance",
    "Xolotl.Solver.Columns.walls_flat",
    "Xolotl.Solver.Columns.balance_flat_partial",
    "Xolotl.Solver.Columns.walls_leak",
    "Xolotl.Solver.Columns.step_unaccounted",
    "Xolotl.Solver.Columns.boundary_unaccounted",
    "Xolotl.Solver.Columns.two_is_three",
    "Xolotl.Solver.Columns.column_is_one",
    "Xolotl.Solver.Columns.alike",
    "Xolotl.Solver.Columns.alike_rate",
    "Xolotl.Solver.Columns.reported_left",
    "Xolotl.Solver.Columns.outgoingAdv_drift",
    "Xolotl.Solver.Columns.adv_balance_partial",
    "Xolotl.Solver.Columns.location_last",
    "Xolotl.Solver.Columns.stale",
    "Xolotl.Solver.Columns.advRate_product"
   ],
   "note": "Exact loss of the computed points for any surface, free sides and grain boundaries; balance with a flat surface; two dimensions as three with one layer, like columns as one dimension; accounts over the columns; advection flux. Missing: grids that widen and temperature gradients (fail already in one dimension, C61); steps, free sides, grain boundaries and the stale location make the accounts wrong (findings)."
  },
  {
   "property": "C82",
   "status": "partial",
   "theorems": [
    "Xolotl.Network.Averages.two_axes",
    "Xolotl.Network.Averages.volumeSum_eq",
    "Xolotl.Network.Averages.ratioSum_eq",
    "Xolotl.Network.Averages.spreadSum_eq",
    "Xolotl.Network.Averages.over_pos",
    "Xolotl.Network.Averages.ratio_iff",
    "Xolotl.Network.Averages.ratio_between",
    "Xolotl.Network.Averages.ratio_scale",
    "Xolotl.Network.Averages.variance_eq",
    "Xolotl.Network.Averages.variance_mean",
    "Xolotl.Network.Averages.variance_nonneg",
    "Xolotl.Network.Averages.wide_wrong",
    "Xolotl.Network.Averages.wide_by",
    "Xolotl.Network.Averages.byId",
    "Xolotl.Network.Averages.byId_wrong",
    "Xolotl.Network.Averages.columns_empty",
    "Xolotl.Network.Averages.columns_mean",
    "Xolotl.Network.Averages.columns_undefined",
    "Xolotl.Network.Averages.volumeFraction_eq",
    "Xolotl.Network.Averages.volumeFraction_method",
    "Xolotl.Network.Averages.vacancy_found",
    "Xolotl.Network.Averages.no_vacancy"
   ],
   "note": "The mean and the variance are what they should be for networks that are one wide along the other species (proved for all such networks); with groups along another species they are not (witness and exact factor). The overload for species ids drops the mean (witness). The monitor prints 0/0 when there is xenon but no bubble (proved). Within a group the mean concentration is used, not its moments."
  },
  {
   "property": "C83",
   "status": "partial",
   "theorems": [
    "Xolotl.Solver.Written.write_eq",
    "Xolotl.Solver.Written.file_rows",
    "Xolotl.Solver.Written.depth_loc",
    "Xolotl.Solver.Written.tridyn_row",
    "Xolotl.Solver.Written.tridyn_wrong",
    "Xolotl.Solver.Written.profile_right",
    "Xolotl.Solver.Written.added_entry",
    "Xolotl.Solver.Written.ranks_points",
    "Xolotl.Solver.Written.reduced",
    "Xolotl.Solver.Written.average_entry",
    "Xolotl.Solver.Written.line_alloy",
    "Xolotl.Solver.Written.line_zr",
    "Xolotl.Solver.Written.formats_accepted",
    "Xolotl.Solver.Written.radius_between",
    "Xolotl.Solver.Written.diameter_between",
    "Xolotl.Solver.Written.partial_le",
    "Xolotl.Solver.Written.zero_counts_all"
   ],
   "note": "Rows, columns, entries and averages are proved for every distribution of points. The temperature column of TRIDYN is not that of its point (proved in general and for equal grids); with a minimum size of zero the partial values exceed the totals (witness). The text formatting and the HDF5 library are not modelled."
  },
  {
   "property": "C84",
   "status": "partial",
   "theorems": [
    "Xolotl.Solver.Monitors.time_last",
    "Xolotl.Solver.Monitors.status_late",
    "Xolotl.Solver.Monitors.charges",
    "Xolotl.Solver.Monitors.restored",
    "Xolotl.Solver.Monitors.registered_active",
    "Xolotl.Solver.Monitors.step_ok",
    "Xolotl.Solver.Monitors.too_high",
    "Xolotl.Solver.Monitors.seen",
    "Xolotl.Solver.Monitors.run_fluence",
    "Xolotl.Solver.Monitors.run_checkpoints",
    "Xolotl.Solver.Monitors.restart_same",
    "Xolotl.Solver.Monitors.doubled",
    "Xolotl.Solver.Monitors.doubled_value",
    "Xolotl.Solver.Monitors.never",
    "Xolotl.Solver.Monitors.forgotten",
    "Xolotl.Solver.Monitors.restart_values"
   ],
   "note": "Proved for all options and steps where exactly one kind of retention is asked for; with both every step is charged twice, with none or in zero dimensions the fluence stays 0 although it is written. That monitors run in the order of registration is PETSc's and trusted. The other monitors appear only as readers of the time."
  },
  {
   "property": "C85",
   "status": "partial",
   "theorems": [
    "Xolotl.Solver.Loop.solve_ends",
    "Xolotl.Solver.Loop.reported",
    "Xolotl.Solver.Loop.converged_iff",
    "Xolotl.Solver.Loop.first_loop",
    "Xolotl.Solver.Loop.next_loop",
    "Xolotl.Solver.Loop.one_loop",
    "Xolotl.Solver.Loop.limits_lost",
    "Xolotl.Solver.Loop.init_ok",
    "Xolotl.Solver.Loop.solve_stack",
    "Xolotl.Solver.Loop.status_file",
    "Xolotl.Solver.Loop.leaks",
    "Xolotl.Solver.Loop.finalize_order",
    "Xolotl.Solver.Loop.many",
    "Xolotl.Solver.Loop.many_times"
   ],
   "note": "TSSolve, the monitors and the references that PETSc holds itself are not modelled; doubles are field elements.  After a failure convergence is reported (reported), limits are lost after a move (limits_lost), objects are left behind (leaks), see findings B178-B182."
  },
  {
   "property": "C86",
   "status": "proved",
   "theorems": [
    "Xolotl.IO.Contents.checkpoint_defined",
    "Xolotl.IO.Contents.keys_nodup",
    "Xolotl.IO.Contents.checkpoint_look",
    "Xolotl.IO.Contents.restart_reads",
    "Xolotl.IO.Contents.restart_options",
    "Xolotl.IO.Contents.grid_reads",
    "Xolotl.IO.Contents.grid_no_steps",
    "Xolotl.IO.Contents.pos_reads",
    "Xolotl.IO.Contents.pos_other",
    "Xolotl.IO.Contents.points_read",
    "Xolotl.IO.Contents.point_restart",
    "Xolotl.IO.Contents.sentSize_owner",
    "Xolotl.IO.Contents.second_throws",
    "Xolotl.IO.Contents.sizes_lost",
    "Xolotl.IO.Contents.other_boundary",
    "Xolotl.IO.Contents.guard_spec",
    "Xolotl.IO.Contents.grid_attributes"
   ],
   "note": "A group is a list of named objects, an object is opened by its name and kind; conversions of numbers by the library are the identity; the ragged concentrations in zero and one dimension are those of C34 and appear by name only."
  },
  {
   "property": "C87",
   "status": "proved",
   "theorems": [
    "Xolotl.Solver.Messages.diamond",
    "Xolotl.Solver.Messages.one_for_all",
    "Xolotl.Solver.Messages.same_end",
    "Xolotl.Solver.Messages.carry_all",
    "Xolotl.Solver.Messages.carried_mem",
    "Xolotl.Solver.Messages.carry_world",
    "Xolotl.Solver.Messages.series_if_int",
    "Xolotl.Solver.Messages.series_fails",
    "Xolotl.Solver.Messages.series_never",
    "Xolotl.Solver.Messages.series_one",
    "Xolotl.Solver.Messages.surface_all",
    "Xolotl.Solver.Messages.surface_sync",
    "Xolotl.Solver.Messages.surface_free"
   ],
   "note": "The semantics of MPI is trusted: order of messages with the same source, destination and tag, collective operations that wait for all, an abort at a message longer than its buffer. The search of the old grid point is a parameter; the values and positions are those of the ranks."
  },
  {
   "property": "C88",
   "status": "proved",
   "theorems": [
    "Xolotl.Options.Readers.setters_iff",
    "Xolotl.Options.Readers.json_values",
    "Xolotl.Options.Readers.json_done",
    "Xolotl.Options.Readers.json_congr",
    "Xolotl.Options.Readers.json_unknown",
    "Xolotl.Options.Readers.json_repeated",
    "Xolotl.Options.Readers.json_case",
    "Xolotl.Options.Readers.json_order",
    "Xolotl.Options.Readers.conf_refuses",
    "Xolotl.Options.Readers.conf_values",
    "Xolotl.Options.Readers.conf_default",
    "Xolotl.Options.Readers.conf_done",
    "Xolotl.Options.Readers.conf_order",
    "Xolotl.Options.Readers.agree",
    "Xolotl.Options.Readers.same_names",
    "Xolotl.Options.Readers.names_nodup",
    "Xolotl.Options.Readers.json_path_lost",
    "Xolotl.Options.Readers.path_blank",
    "Xolotl.Options.Readers.json_text_list",
    "Xolotl.Options.Readers.json_list_fails",
    "Xolotl.Options.Readers.isJson_of",
    "Xolotl.Options.Readers.isJson_ends",
    "Xolotl.Options.Readers.readPath_iff",
    "Xolotl.Options.Readers.fallback_iff"
   ],
   "note": "Conversions of texts to numbers and flags are parameters. Property tree, program_options and file streams are trusted."
  },
  {
   "property": "C89",
   "status": "partial",
   "theorems": [
    "Xolotl.Solver.Exchange.pairs_mem",
    "Xolotl.Solver.Exchange.pairs_sorted",
    "Xolotl.Solver.Exchange.write_pairs",
    "Xolotl.Solver.Exchange.write_defined",
    "Xolotl.Solver.Exchange.owned_iff",
    "Xolotl.Solver.Exchange.get_at",
    "Xolotl.Solver.Exchange.put_get",
    "Xolotl.Solver.Exchange.put_exact_iff",
    "Xolotl.Solver.Exchange.put_zero",
    "Xolotl.Solver.Exchange.put_empty",
    "Xolotl.Solver.Exchange.put_stale",
    "Xolotl.Solver.Exchange.put_twice",
    "Xolotl.Solver.Exchange.putAll_getAll",
    "Xolotl.Solver.Exchange.put_defined",
    "Xolotl.Solver.Exchange.visited_nil",
    "Xolotl.Solver.Exchange.temps_zero",
    "Xolotl.Solver.Exchange.temps_back",
    "Xolotl.Solver.Exchange.temps_kept",
    "Xolotl.Solver.Exchange.visited_signed",
    "Xolotl.Solver.Exchange.refresh_close",
    "Xolotl.Solver.Exchange.restore_save",
    "Xolotl.Solver.Exchange.fluence_back_iff",
    "Xolotl.Solver.Exchange.dense_get",
    "Xolotl.Solver.Exchange.owned_once"
   ],
   "note": "The code violates the statement on a grid: values below the threshold and the temperatures do not come back, and the fluence only with a constant flux. What does come back is characterised exactly. PETSc's vectors and the rates computed from temperatures are not modelled."
  },
  {
   "property": "C90",
   "status": "partial",
   "theorems": [
    "Xolotl.Network.Pattern.build_exists",
    "Xolotl.Network.Pattern.matrix_exact",
    "Xolotl.Network.Pattern.evaluations_clean",
    "Xolotl.Network.Pattern.matrix_jacobian",
    "Xolotl.Network.Pattern.outside_pattern",
    "Xolotl.Network.Pattern.fe_jacobian",
    "Xolotl.Network.Pattern.ne_jacobian",
    "Xolotl.Network.Pattern.ne_own_jacobian",
    "Xolotl.Network.Pattern.psi_jacobian",
    "Xolotl.Network.Pattern.psi_all_jacobian_partial",
    "Xolotl.Network.Pattern.desorption_missing",
    "Xolotl.Network.Pattern.zr_jacobian",
    "Xolotl.Network.Pattern.alloy_jacobian",
    "Xolotl.Network.Pattern.constant_matrix_exact",
    "Xolotl.Network.Pattern.constant_matrix_jacobian",
    "Xolotl.Network.Pattern.constant_evaluations_clean",
    "Xolotl.Network.Pattern.constant_outside_pattern",
    "Xolotl.Network.Pattern.zr_constant_jacobian",
    "Xolotl.Network.Pattern.alloy_constant_jacobian"
   ],
   "note": "Without dimension of space and with the full Jacobian (the reduced one is C98). With modified trap mutation the code violates the statement in the rows of the desorbing cluster's mutations, where the derivative of the left side rate is missing (witness); everywhere else it is proved. Zirconium and alloys also with constant reactions whose rates change between the evaluations (zr_constant_jacobian, alloy_constant_jacobian)."
  },
  {
   "property": "C91",
   "status": "partial",
   "theorems": [
    "Xolotl.IO.NetFile.write_eq",
    "Xolotl.IO.NetFile.read_written",
    "Xolotl.IO.NetFile.bounds_region",
    "Xolotl.IO.NetFile.write_determines",
    "Xolotl.IO.NetFile.size_negative",
    "Xolotl.IO.NetFile.run_others",
    "Xolotl.IO.NetFile.untouched",
    "Xolotl.IO.NetFile.first_net",
    "Xolotl.IO.NetFile.start_thrown",
    "Xolotl.IO.NetFile.own_network",
    "Xolotl.IO.NetFile.restart_network",
    "Xolotl.IO.NetFile.chain_network",
    "Xolotl.IO.NetFile.chain_own",
    "Xolotl.IO.NetFile.stale_network",
    "Xolotl.IO.NetFile.missing_restart",
    "Xolotl.IO.NetFile.never_network",
    "Xolotl.IO.NetFile.step_conc",
    "Xolotl.IO.NetFile.checkForRestart_iff"
   ],
   "note": "Proved as stated. Partial because what a user expects of the file, that it describes the network of the run that wrote it, is false for restarts: stale_network; also the size of a network with 2^31 clusters or more is read as a negative number (size_negative)."
  },
  {
   "property": "C92",
   "status": "partial",
   "theorems": [
    "Xolotl.Solver.Depths.tempIndex_spec",
    "Xolotl.Solver.Depths.tempIndex_lt",
    "Xolotl.Solver.Depths.defined_iff",
    "Xolotl.Solver.Depths.disabled",
    "Xolotl.Solver.Depths.zero_dimension",
    "Xolotl.Solver.Depths.noSolve_outside",
    "Xolotl.Solver.Depths.length_depths",
    "Xolotl.Solver.Depths.depths_get",
    "Xolotl.Solver.Depths.in_grid",
    "Xolotl.Solver.Depths.depth_mono",
    "Xolotl.Solver.Depths.defined_last",
    "Xolotl.Solver.Depths.vacuum_outside",
    "Xolotl.Solver.Depths.first_rank",
    "Xolotl.Solver.Depths.later_rank",
    "Xolotl.Solver.Depths.shifted",
    "Xolotl.Solver.Depths.shifted_lt",
    "Xolotl.Solver.Depths.line_offset",
    "Xolotl.Solver.Depths.agree",
    "Xolotl.Solver.Depths.ranks_differ"
   ],
   "note": "The search, the reads of the grid and the order of the depths are proved as stated. The code violates the rest: no temperature exists without solver or on a rank above the surface, the depths are those of the next entry, and the tables depend on the division among ranks; these are proved with witnesses, together with agreement of all ranks when the temperatures lie on one side of 1066.5 K. Rounding and the copies to the device are not modelled."
  },
  {
   "property": "C93",
   "status": "partial",
   "theorems": [
    "Xolotl.Network.Mirror.start_inv",
    "Xolotl.Network.Mirror.setScalar_inv",
    "Xolotl.Network.Mirror.deviceOnly_inv",
    "Xolotl.Network.Mirror.sync_frame",
    "Xolotl.Network.Mirror.sync_mirror",
    "Xolotl.Network.Mirror.sync_inv",
    "Xolotl.Network.Mirror.getMirror_inv",
    "Xolotl.Network.Mirror.temperatures_inv",
    "Xolotl.Network.Mirror.read_inv",
    "Xolotl.Network.Mirror.gridSize_inv",
    "Xolotl.Network.Mirror.step_inv",
    "Xolotl.Network.Mirror.coherent",
    "Xolotl.Network.Mirror.coherent_flags",
    "Xolotl.Network.Mirror.no_alias",
    "Xolotl.Network.Mirror.flag_stale",
    "Xolotl.Network.Mirror.extra_stale",
    "Xolotl.Network.Mirror.zr_stale",
    "Xolotl.Network.Mirror.extra_same"
   ],
   "note": "Proved for the structure on the device, the size of the grid, the data by cluster, the temperatures, the diffusion coefficients and all numbers and flags but three, which agree if set while there is no mirror as in the constructor. The code violates the rest: witnesses for a flag set later, for the extra data with separate memories, and for zirconium after setGridSize. Kokkos is trusted; the subpaving mirror, the map of the network of nuclear engineering and the reactions are not modelled."
  },
  {
   "property": "C94",
   "status": "partial",
   "theorems": [
    "Xolotl.Solver.TextFiles.he_row",
    "Xolotl.Solver.TextFiles.he_labels",
    "Xolotl.Solver.TextFiles.he_program",
    "Xolotl.Solver.TextFiles.he_width",
    "Xolotl.Solver.TextFiles.restart_short",
    "Xolotl.Solver.TextFiles.name_inj",
    "Xolotl.Solver.TextFiles.instant_custom",
    "Xolotl.Solver.TextFiles.instant_base",
    "Xolotl.Solver.TextFiles.instant_pulsed",
    "Xolotl.Solver.TextFiles.xe_row",
    "Xolotl.Solver.TextFiles.ne_row",
    "Xolotl.Solver.TextFiles.ne_width",
    "Xolotl.Solver.TextFiles.ne_undefined",
    "Xolotl.Solver.TextFiles.label_inj",
    "Xolotl.Solver.TextFiles.label_interstitial",
    "Xolotl.Solver.TextFiles.data_header",
    "Xolotl.Solver.TextFiles.data_label",
    "Xolotl.Solver.TextFiles.data_width",
    "Xolotl.Solver.TextFiles.temp_row",
    "Xolotl.Solver.TextFiles.temp_shift",
    "Xolotl.Solver.TextFiles.temp_moved",
    "Xolotl.Solver.TextFiles.rows_kept",
    "Xolotl.Solver.TextFiles.rows_lost",
    "Xolotl.Solver.TextFiles.restart_erases",
    "Xolotl.Solver.TextFiles.output_rows",
    "Xolotl.Solver.TextFiles.bubble_rows",
    "Xolotl.Solver.TextFiles.bubble_bounds",
    "Xolotl.Solver.TextFiles.bubble_missed",
    "Xolotl.Solver.TextFiles.toId_none",
    "Xolotl.Solver.TextFiles.toId_some"
   ],
   "note": "Proved for retentionOut.txt, for instantFlux.txt with the custom flux, for Alloy.dat and, as to columns, for AlphaZr.dat and the bubbles. The code violates the rest: witnesses for lost rows of bursting.txt and AlphaZr.dat, for files emptied at a restart, for instantFlux.txt with other fluxes, and for the header of tempProf.txt. The heights in surface.txt are in C103."
  },
  {
   "property": "C95",
   "status": "partial",
   "theorems": [
    "Xolotl.Network.ProdRxn.entries_rates",
    "Xolotl.Network.DissRxn.entries_rates",
    "Xolotl.Network.DissRxn.covered_or_unset",
    "Xolotl.Network.RateEnt.tables_eq",
    "Xolotl.Network.RateEnt.array_rates",
    "Xolotl.Network.RateEnt.sub_closed",
    "Xolotl.Network.RateEnt.const_reads",
    "Xolotl.Network.RateEnt.array_flux_partial",
    "Xolotl.Network.RateEnt.first_wrong",
    "Xolotl.Network.ProdRxn.set_marked",
    "Xolotl.Network.DissRxn.set_marked"
   ],
   "note": "Proved for all productions, for dissociations up to the entries that were never set, and for the whole array and the reads of the constant reactions; the composed flux has the restrictions of C19. Violated by the code for a dissociation whose reactant and first product are grouped: witness first_wrong."
  },
  {
   "property": "C96",
   "status": "partial",
   "theorems": [
    "Xolotl.Solver.Initial.first_start",
    "Xolotl.Solver.Initial.first_temps",
    "Xolotl.Solver.Initial.given_iff",
    "Xolotl.Solver.Initial.skipped_iff",
    "Xolotl.Solver.Initial.given_evolves",
    "Xolotl.Solver.Initial.restart_eq",
    "Xolotl.Solver.Initial.restart_written",
    "Xolotl.Solver.Initial.restart_empty",
    "Xolotl.Solver.Initial.size_calls",
    "Xolotl.Solver.Initial.depths_inside",
    "Xolotl.Solver.Initial.first_frozen",
    "Xolotl.Solver.Initial.first_evolves",
    "Xolotl.Solver.Initial.again_outside",
    "Xolotl.Solver.Initial.position_center",
    "Xolotl.Solver.Initial.position_range",
    "Xolotl.Solver.Initial.firstTemp_eq",
    "Xolotl.Solver.Initial.depth_entry"
   ],
   "note": "Proved for all dimensions as stated, except: in one dimension the first grid point of a reflective surface gets concentrations but is never computed (first_frozen), grid points of grain boundaries likewise, the vector grows in three dimensions (size_calls, again_outside), and its two outer entries do not come from the file (restart_written)."
  },
  {
   "property": "C97",
   "status": "partial",
   "theorems": [
    "Xolotl.Solver.Burst.points_iff",
    "Xolotl.Solver.Burst.points_nodup",
    "Xolotl.Solver.Burst.listed_own",
    "Xolotl.Solver.Burst.numbers_own",
    "Xolotl.Solver.Burst.listed_all",
    "Xolotl.Solver.Burst.numbers_all",
    "Xolotl.Solver.Burst.listed_nodup",
    "Xolotl.Solver.Burst.large_listed",
    "Xolotl.Solver.Burst.quiet_point",
    "Xolotl.Solver.Burst.one_list",
    "Xolotl.Solver.Burst.all_lists",
    "Xolotl.Solver.Burst.agree",
    "Xolotl.Solver.Burst.happens_iff",
    "Xolotl.Solver.Burst.happens_three",
    "Xolotl.Solver.Burst.event_again",
    "Xolotl.Solver.Burst.event_new",
    "Xolotl.Solver.Burst.test_bursts",
    "Xolotl.Solver.Burst.vacancies_area",
    "Xolotl.Solver.Burst.more_helium",
    "Xolotl.Solver.Burst.distance_pos",
    "Xolotl.Solver.Burst.fine",
    "Xolotl.Solver.Burst.empty_quiet",
    "Xolotl.Solver.Burst.first_always",
    "Xolotl.Solver.Burst.acts_spec",
    "Xolotl.Solver.Burst.post_own",
    "Xolotl.Solver.Burst.post_two_partial",
    "Xolotl.Solver.Burst.post_two_undefined",
    "Xolotl.Solver.Burst.account_one",
    "Xolotl.Solver.Burst.account_none",
    "Xolotl.Solver.Burst.hxLeft_width_iff",
    "Xolotl.Solver.Burst.hxLeft_less",
    "Xolotl.Solver.Burst.three_disagree",
    "Xolotl.Solver.Burst.three_shift",
    "Xolotl.Solver.Burst.owns_three",
    "Xolotl.Solver.Burst.owns_two"
   ],
   "note": "The code violates parts of the statement, proved as negations: in two dimensions rows of other ranks are read (post_two_undefined), in three dimensions the ranks disagree on the event (three_disagree), in two and three dimensions nothing is accounted (account_none) and in one dimension with widths other than those of the retained amount (hxLeft_less). The rest holds in all dimensions. Numbers are real."
  },
  {
   "property": "C98",
   "status": "partial",
   "theorems": [
    "Xolotl.Network.Reduced.chosen_iff",
    "Xolotl.Network.Reduced.chosen_append",
    "Xolotl.Network.Reduced.coo_diagonal",
    "Xolotl.Network.Reduced.matrix_reduced",
    "Xolotl.Network.Reduced.defined_iff",
    "Xolotl.Network.Reduced.unset_undefined",
    "Xolotl.Network.Reduced.matrix_diagonal",
    "Xolotl.Network.Reduced.tidy_iff",
    "Xolotl.Network.Reduced.fe_diagonal",
    "Xolotl.Network.Reduced.fe_singles",
    "Xolotl.Network.Reduced.ne_diagonal",
    "Xolotl.Network.Reduced.ne_singles",
    "Xolotl.Network.Reduced.ne_own_diagonal",
    "Xolotl.Network.Reduced.psi_diagonal",
    "Xolotl.Network.Reduced.psi_singles",
    "Xolotl.Network.Reduced.psi_all_diagonal_partial",
    "Xolotl.Network.Reduced.zr_diagonal",
    "Xolotl.Network.Reduced.zr_singles",
    "Xolotl.Network.Reduced.alloy_diagonal",
    "Xolotl.Network.Reduced.alloy_singles",
    "Xolotl.Network.Reduced.diagonal_lost",
    "Xolotl.Network.Reduced.order_undefined",
    "Xolotl.Network.Reduced.value_ignored",
    "Xolotl.Network.DissRxn.reduced_deficit"
   ],
   "note": "The code violates the statement where a cluster comes apart into itself and a cluster that is not grouped on one of its axes: an entry of the diagonal is lost (diagonal_lost) or an index never set is used (order_undefined), depending on the order of the ids. Without such dissociations, and for every network without groups, the full statement is proved for iron, fuel (with its own sources too), tungsten, zirconium and alloys; with modified trap mutation except in the rows of the mutations of the desorbing cluster. The exact difference from the diagonal is matrix_reduced, the exact condition for being defined is defined_iff. Without dimension of space; constant reactions are not part of the networks."
  },
  {
   "property": "C99",
   "status": "partial",
   "theorems": [
    "Xolotl.Solver.Matrix.matrix_sum_partial",
    "Xolotl.Solver.Matrix.matrix_jacobian_partial",
    "Xolotl.Solver.Matrix.Line.line_jacobian_partial",
    "Xolotl.Solver.Matrix.Line.line_fe",
    "Xolotl.Solver.Matrix.Space.linear_jacobian",
    "Xolotl.Solver.Matrix.Space.plane_jacobian_partial",
    "Xolotl.Solver.Matrix.Space.box_jacobian_partial",
    "Xolotl.Solver.Matrix.Line.line_surface_wrong",
    "Xolotl.Solver.Matrix.Line.line_reflecting_wrong",
    "Xolotl.Solver.Matrix.Space.plane_heat_partial",
    "Xolotl.Solver.Matrix.Space.box_heat_partial",
    "Xolotl.Solver.Matrix.Space.lack2",
    "Xolotl.Solver.Matrix.Space.lack3",
    "Xolotl.Solver.Matrix.Space.lack2_300",
    "Xolotl.Solver.Matrix.Space.lack3_300",
    "Xolotl.Solver.Matrix.Space.heatTimes_eq",
    "Xolotl.Solver.Matrix.Line.pos_middle",
    "Xolotl.Solver.Matrix.Line.no_heat",
    "Xolotl.Solver.Matrix.Space.bound_defined",
    "Xolotl.Solver.Matrix.Space.across_defined",
    "Xolotl.Solver.Matrix.Space.wall_defined",
    "Xolotl.Solver.Matrix.Space.box_walls_partial",
    "Xolotl.Solver.Matrix.Space.wall_eq",
    "Xolotl.Solver.Matrix.Space.walls_sum",
    "Xolotl.Solver.Matrix.Space.across_boundary_partial",
    "Xolotl.Solver.Matrix.Space.linear_rest",
    "Xolotl.Solver.Matrix.Space.across_eq",
    "Xolotl.Solver.Matrix.Space.rest_sum",
    "Xolotl.Solver.Matrix.Space.plane_boundary_partial",
    "Xolotl.Solver.Matrix.Space.box_boundary_partial",
    "Xolotl.Solver.Matrix.Space.linear_lack",
    "Xolotl.Solver.Matrix.Space.announced_meant",
    "Xolotl.Solver.Matrix.Space.rate_eq"
   ],
   "note": "The matrix is the derivative of the whole right-hand side in every regular row; the claim fails, with witnesses, at a heated surface and at a reflecting surface in one dimension; regular excludes the surface, bulk and interface rows of the heat equation, Soret diffusion on an empty stencil (C29), the kink of nucleation and trap mutation of the desorbing cluster (C90), and handlers with unequally many advecting clusters (C53). Not modelled: the change of the rates with the temperature and the attenuation of trap mutation. With boundaries across y in two dimensions or across y and z in three, whose columns are announced for position 0 (C53), every entry is right at the points below all boundaries, and above or on a boundary the derivative by the upper neighbour stands in the column of the lower neighbour or of the point itself (across_boundary_partial, box_walls_partial). With boundaries across the depth in two and three dimensions every entry is right at points that are on none, and on a boundary just the derivatives by the left and right neighbour are missing (plane_boundary_partial, box_boundary_partial); in one dimension a boundary stops the run at the first evaluation (C101). With the heat equation in two and three dimensions every entry is right away from the interface but the diagonal of the temperature, which is wrong where the temperature varies along the surface (plane_heat_partial, box_heat_partial)."
  },
  {
   "property": "C100",
   "status": "partial",
   "theorems": [
    "Xolotl.Transport.Temperature.constant_given",
    "Xolotl.Transport.Temperature.gradient_given",
    "Xolotl.Transport.Temperature.relative_inside",
    "Xolotl.Transport.Temperature.relative_mono",
    "Xolotl.Transport.Temperature.gradient_between",
    "Xolotl.Transport.Temperature.gradient_above",
    "Xolotl.Transport.Temperature.readFile_eq",
    "Xolotl.Transport.Temperature.profile_given_partial",
    "Xolotl.Transport.Temperature.profile_blank_line",
    "Xolotl.Transport.Temperature.profile_no_rows",
    "Xolotl.Transport.Temperature.heat_given_partial",
    "Xolotl.Transport.Temperature.elm_given",
    "Xolotl.Transport.Temperature.heat_flux",
    "Xolotl.Transport.Temperature.heat_flux_file",
    "Xolotl.Transport.Temperature.heat_file_ignored",
    "Xolotl.Transport.Temperature.make_none",
    "Xolotl.Transport.Temperature.zero_dimensions",
    "Xolotl.Transport.Temperature.stored_used_partial",
    "Xolotl.Transport.Temperature.stored_profile",
    "Xolotl.Transport.Temperature.stored_profile_wrong",
    "Xolotl.Transport.Temperature.elm_period",
    "Xolotl.Transport.Temperature.elm_bounds",
    "Xolotl.Transport.Temperature.elm_start",
    "Xolotl.Transport.Temperature.elm_inside",
    "Xolotl.Transport.Temperature.elm_flux_given",
    "Xolotl.Transport.Temperature.elm_start_continuous",
    "Xolotl.Transport.Temperature.elm_jump"
   ],
   "note": "Holds for constant, gradient and ELM, for profiles whose lines have two numbers each and increasing times, and for a heat flux that is not zero. Fails: a file of fluxes with a zero parameter, lines without a number, the temperature in the solution with a profile, a jump of the ELM flux at the end of a period. The conversion of numbers is a parameter; numbers are reals or elements of an ordered field."
  },
  {
   "property": "C101",
   "status": "partial",
   "theorems": [
    "Xolotl.Options.Material.boundaries_ok_iff",
    "Xolotl.Options.Material.boundaries_undefined_iff",
    "Xolotl.Options.Material.boundaries_throws_iff",
    "Xolotl.Options.Material.diffusion_cases",
    "Xolotl.Options.Material.materials_known",
    "Xolotl.Options.Material.make_iff",
    "Xolotl.Options.Material.run_ok_iff",
    "Xolotl.Options.Material.soret_used_iff",
    "Xolotl.Options.Material.boundary_zero_dimensions",
    "Xolotl.Options.Material.x_boundary_line",
    "Xolotl.Options.Material.z_boundary_plane",
    "Xolotl.Options.Material.boundary_other_material",
    "Xolotl.Options.Material.boundary_no_location",
    "Xolotl.Options.Material.process_ignored"
   ],
   "note": "The factories, the handlers made and the grain string are characterised for all options; the claim fails, with witnesses, for X boundaries in one dimension, Z in two, boundaries in materials without tungsten network, a letter without location, and processes that the material ignores. The conversion of a location is a parameter."
  },
  {
   "property": "C102",
   "status": "partial",
   "theorems": [
    "Xolotl.Network.Largest.largest_counted",
    "Xolotl.Network.Largest.none_iff",
    "Xolotl.Network.Largest.largest_partial",
    "Xolotl.Network.Largest.largest_zr",
    "Xolotl.Network.Largest.stops_iff",
    "Xolotl.Network.Largest.goes_on_iff",
    "Xolotl.Network.Largest.some_rank_stops",
    "Xolotl.Network.Largest.serial_first",
    "Xolotl.Network.Largest.any_of_the_largest",
    "Xolotl.Network.Largest.size_total",
    "Xolotl.Network.Largest.size_wraps",
    "Xolotl.Network.Largest.perfect_ignored",
    "Xolotl.Network.Largest.largest_false",
    "Xolotl.Network.Largest.none_perfect",
    "Xolotl.Network.Largest.none_undefined",
    "Xolotl.Network.Largest.alloy_perfect_undefined",
    "Xolotl.Network.Largest.tie_unseen",
    "Xolotl.Network.Largest.group_unseen"
   ],
   "note": "For every schedule of the reduction the cluster found holds a composition with the largest amount of the counted species, which for zirconium, and for the others when no composition with other species is larger, is a largest cluster of the network; the monitor stops exactly if its mean concentration is above the threshold at a point. The full statement is false: perfect loops and interstitials are not counted, only one of several largest clusters is watched, and only the mean of a group is compared (proved with witnesses). Sums are in 32 bits; the identity and the joins of the reducer are trusted."
  },
  {
   "property": "C103",
   "status": "partial",
   "theorems": [
    "Xolotl.Solver.Plots.xy_value",
    "Xolotl.Solver.Plots.xz_value",
    "Xolotl.Solver.Plots.xy_points",
    "Xolotl.Solver.Plots.xz_points",
    "Xolotl.Solver.Plots.not_integral",
    "Xolotl.Solver.Plots.twice_the_points",
    "Xolotl.Solver.Plots.scatter_mem",
    "Xolotl.Solver.Plots.scatter_xenon",
    "Xolotl.Solver.Plots.scatter_vacancies",
    "Xolotl.Solver.Plots.scatter_zero",
    "Xolotl.Solver.Plots.draws_one",
    "Xolotl.Solver.Plots.row2_get",
    "Xolotl.Solver.Plots.row3_get",
    "Xolotl.Solver.Plots.height_depth",
    "Xolotl.Solver.Plots.height_thickness"
   ],
   "note": "The points of the plots, their order, positions and values, and the rows of surface.txt are characterised for every grid and every sharing of it by the ranks. The full statement is false: the planes show sums without the step, the scatter plot with vacancies is no size distribution and shows the mean of a group for its members, and the height is the thickness in one dimension and the depth in two and three (proved with witnesses)."
  },
  {
   "property": "C104",
   "status": "partial",
   "theorems": [
    "Xolotl.Solver.Drawn.surface_cells",
    "Xolotl.Solver.Drawn.surface2",
    "Xolotl.Solver.Drawn.surfaceXY",
    "Xolotl.Solver.Drawn.surfaceXZ",
    "Xolotl.Solver.Drawn.left_half_of_before",
    "Xolotl.Solver.Drawn.shifted",
    "Xolotl.Solver.Drawn.one_row",
    "Xolotl.Solver.Drawn.two_points",
    "Xolotl.Solver.Drawn.same_place",
    "Xolotl.Solver.Drawn.small_alike",
    "Xolotl.Solver.Drawn.series_lines",
    "Xolotl.Solver.Drawn.only_eighteen",
    "Xolotl.Solver.Drawn.scatter_drawn",
    "Xolotl.Solver.Drawn.scatter_right_iff",
    "Xolotl.Solver.Drawn.scatter_shifted",
    "Xolotl.Solver.Drawn.scatter_vacancies_first",
    "Xolotl.Solver.Drawn.mean_spec"
   ],
   "note": "The cells, lines and points given to VTK-m for all inputs.  The statement does not hold as a whole: the images of the planes are shifted by half an interval (left_half_of_before, shifted), the scatter plot ignores the sizes (scatter_right_iff, scatter_shifted), only eighteen clusters have a line, and one row or two points are drawn wrongly (B246-B248).  The rendering itself, the camera and the labels are not modelled; the data set builders of VTK-m are trusted base."
  },
  {
   "property": "C105",
   "status": "partial",
   "theorems": [
    "Xolotl.Network.Irradiation.reSolution_pos",
    "Xolotl.Network.Irradiation.reSolution_linear",
    "Xolotl.Network.Irradiation.reSolution_radius",
    "Xolotl.Network.Irradiation.reSolution_zeta",
    "Xolotl.Network.Irradiation.reSolution_bound",
    "Xolotl.Network.Irradiation.zeta_steps",
    "Xolotl.Network.Irradiation.nucleation_units",
    "Xolotl.Network.Irradiation.nucleation_no_units",
    "Xolotl.Network.Irradiation.nucleation_bounds",
    "Xolotl.Network.Irradiation.sinks",
    "Xolotl.Network.Irradiation.sinks_zero",
    "Xolotl.Network.Irradiation.rate_of_options",
    "Xolotl.Network.Irradiation.stale",
    "Xolotl.Network.Irradiation.sinks_area"
   ],
   "note": "All parts about re-solution, the bound of nucleation and the sinks are proved for all values.  Two parts do not hold: below its threshold the flux of nucleation does not depend on the unit of time (nucleation_no_units, B249), and after setFissionRate the rate in use is the old one (stale, B250; the solver does not call it, rate_of_options).  Doubles are real numbers; exp is the exact function."
  },
  {
   "property": "C106",
   "status": "partial",
   "theorems": [
    "Xolotl.Solver.Carried.carried_at",
    "Xolotl.Solver.Carried.carried_partial",
    "Xolotl.Solver.Carried.reset_receding",
    "Xolotl.Solver.Carried.outside",
    "Xolotl.Solver.Carried.own_temperatures",
    "Xolotl.Solver.Carried.surface_two_temperatures",
    "Xolotl.Solver.Carried.neighbours_own",
    "Xolotl.Solver.Carried.single_zero",
    "Xolotl.Solver.Carried.stays",
    "Xolotl.Solver.Carried.never_agree",
    "Xolotl.Solver.Carried.corrected",
    "Xolotl.Solver.Carried.uniform_partial"
   ],
   "note": "Every point below the surface has the interpolated values and every rank the temperatures of its own points; after one evaluation all temperatures are within 0.1 K of those of the handler; a uniform temperature stays uniform everywhere. The full statement is false: the surface has two temperatures, ranks use their own temperature for the points of their neighbours and may never agree, the first point below the surface gets the initial concentrations again, and a first rank with one point has 0 K. The search and the messages are those of C54 and C87; two and three dimensions are in C71."
  },
  {
   "property": "C107",
   "status": "partial",
   "theorems": [
    "Xolotl.Network.Formation.formation_isSome",
    "Xolotl.Network.Formation.formation_values",
    "Xolotl.Network.Formation.energyOf_iff",
    "Xolotl.Network.Formation.readRows_spec",
    "Xolotl.Network.Formation.file4_read",
    "Xolotl.Network.Formation.void_binding",
    "Xolotl.Network.Formation.missing_species",
    "Xolotl.Network.Formation.stale",
    "Xolotl.Network.Formation.stale_rate",
    "Xolotl.Network.Formation.repeated",
    "Xolotl.Network.Formation.repeated_case",
    "Xolotl.Network.Formation.no_file",
    "Xolotl.Network.Formation.void_no_file"
   ],
   "note": "When the reading is defined and which value each of the four energies gets are proved for all files and networks. The claim itself fails: the temperature is that of the options (`stale`), repeated lines mix (`repeated_case`), a species missing in the network or the file is undefined behaviour (`missing_species`); without a file the energies are 0 (`void_no_file`)."
  },
  {
   "property": "C108",
   "status": "partial",
   "theorems": [
    "Xolotl.Network.Anisotropy.mean3_spec",
    "Xolotl.Network.Anisotropy.unique",
    "Xolotl.Network.Anisotropy.between",
    "Xolotl.Network.Anisotropy.visit_moves",
    "Xolotl.Network.Anisotropy.after_moves",
    "Xolotl.Network.Anisotropy.after_rests",
    "Xolotl.Network.Anisotropy.temperature",
    "Xolotl.Network.Anisotropy.directions",
    "Xolotl.Network.Anisotropy.tables_pos",
    "Xolotl.Network.Anisotropy.rates_defined",
    "Xolotl.Network.Anisotropy.nine_rest",
    "Xolotl.Network.Anisotropy.four_five_rest",
    "Xolotl.Network.Anisotropy.zero_kelvin",
    "Xolotl.Network.Anisotropy.group_origin",
    "Xolotl.Network.Anisotropy.two_vacancies"
   ],
   "note": "All parts are proved for all sequences of positive temperatures except that a cluster with a migration energy moves: nine interstitials have one and stay at rest (`nine_rest`). At zero kelvin the ratio is not a number (`zero_kelvin`)."
  }
 ]
}