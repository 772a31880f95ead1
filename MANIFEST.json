{
 "claims": [
  {
   "property": "C01",
   "status": "proved",
   "theorems": [
    "Verif.Pipeline.pipeline_conserves_data_in_order",
    "Verif.Pipeline.extracted_is_prefix",
    "Verif.Pipeline.processStage_negative_breaks_order"
   ],
   "note": "all histories of feed/feedMany/processStage(k>=0)/process/processToStage/extract; negative stage numbers break it (counterexample)"
  },
  {
   "property": "C02",
   "status": "proved",
   "theorems": [
    "Verif.Pipeline.queues_match_elements"
   ],
   "note": ""
  },
  {
   "property": "C03",
   "status": "proved",
   "theorems": [
    "Verif.Pipeline.addElement_exact",
    "Verif.Pipeline.addElement_pushes_forward",
    "Verif.Pipeline.addElement_aligned",
    "Verif.Pipeline.addElement_misaligned_negative",
    "Verif.Pipeline.addElement_misaligned_large"
   ],
   "note": "every integer stage number, with the exact condition under which the data move along"
  },
  {
   "property": "C04",
   "status": "proved",
   "theorems": [
    "Verif.Pipeline.removeElement_exact",
    "Verif.Pipeline.removeElement_keeps_order",
    "Verif.Pipeline.removeElement_negative_drops_output"
   ],
   "note": "every integer stage number"
  },
  {
   "property": "C05",
   "status": "proved",
   "theorems": [
    "Verif.Pipeline.exception_leaves_datum_in_place",
    "Verif.Pipeline.rejected_datum_is_dropped"
   ],
   "note": ""
  },
  {
   "property": "C06",
   "status": "proved",
   "theorems": [
    "Verif.Pipeline.message_reaches_exactly_its_targets",
    "Verif.Pipeline.message_keeps_its_place"
   ],
   "note": ""
  },
  {
   "property": "C07",
   "status": "proved",
   "theorems": [
    "Verif.Pipeline.processSingle_exact",
    "Verif.Pipeline.pushThrough_last",
    "Verif.Pipeline.pushThrough_empty",
    "Verif.Pipeline.processSingle_composes",
    "Verif.Pipeline.processSingle_returns",
    "Verif.Pipeline.processSingle_returns_other_data"
   ],
   "note": "exact; data elements only in the queues for the case of data waiting at later stages"
  },
  {
   "property": "C08",
   "status": "proved",
   "theorems": [
    "Verif.Pipeline.processSingle_attempts_bounded",
    "Verif.Pipeline.drain_attempts_bounded"
   ],
   "note": ""
  },
  {
   "property": "C09",
   "status": "proved",
   "theorems": [
    "Verif.Pipeline.extract_all_drains",
    "Verif.Pipeline.extract_empty_raises"
   ],
   "note": ""
  },
  {
   "property": "C10",
   "status": "proved",
   "theorems": [
    "Verif.Pipeline.accumulate_collects",
    "Verif.Pipeline.accumulate_zero_blocks",
    "Verif.Pipeline.accumulate_to_attribute_process_raises",
    "Verif.Pipeline.accumulate_second_nested_raises"
   ],
   "note": "run stage by stage; process(repeat=True) with setattrname raises (counterexample)"
  },
  {
   "property": "C100",
   "status": "proved",
   "theorems": [
    "Verif.SiteHorizon.horizontal_direction",
    "Verif.SiteHorizon.angles_preserved",
    "Verif.SiteHorizon.horizontal_range",
    "Verif.SiteHorizon.sidereal_day",
    "Verif.SiteHorizon.only_difference",
    "Verif.SiteHorizon.transit_altitude",
    "Verif.SiteHorizon.pole_altitude",
    "Verif.SiteHorizon.east_then_west",
    "Verif.SiteHorizon.alt_coefficients",
    "Verif.SiteHorizon.az_coefficients",
    "Verif.SiteHorizon.no_errors",
    "Verif.SiteHorizon.list_each",
    "Verif.SiteHorizon.errors_swapped",
    "Verif.SiteHorizon.errors_counterexample"
   ],
   "note": "exact real arithmetic, epoch None; the swapped errors are stated as they are"
  },
  {
   "property": "C101",
   "status": "proved",
   "theorems": [
    "Verif.SiteRise.circumpolar_iff",
    "Verif.SiteRise.never_iff",
    "Verif.SiteRise.rise_set_hours",
    "Verif.SiteRise.rise_set_total",
    "Verif.SiteRise.rise_set_datetimes",
    "Verif.SiteRise.rise_set_order",
    "Verif.SiteRise.grazing_counterexample",
    "Verif.SiteRise.utc_transit",
    "Verif.SiteRise.utc_day_counterexample",
    "Verif.SiteRise.utc_day_example",
    "Verif.SiteRise.chooseWindow_first",
    "Verif.SiteRise.chooseWindow_always",
    "Verif.SiteRise.chooseWindow_never",
    "Verif.SiteRise.onSky_true",
    "Verif.SiteRise.onSky_first_transits",
    "Verif.SiteRise.second_transit_missed",
    "Verif.SiteRise.missed_example"
   ],
   "note": "exact real arithmetic; failures included"
  },
  {
   "property": "C102",
   "status": "proved",
   "theorems": [
    "Verif.SiteTime.lst_of_longitude",
    "Verif.SiteTime.forms_agree",
    "Verif.SiteTime.results_agree",
    "Verif.SiteTime.localTime_roundtrip",
    "Verif.SiteTime.apparent_ignored",
    "Verif.SiteTime.apparent_counterexample",
    "Verif.SiteTime.datetime_time_ignored",
    "Verif.SiteRise.localTime_right",
    "Verif.SiteRise.localTime_utc",
    "Verif.SiteRise.localDateTime_total",
    "Verif.SiteRise.transit_day"
   ],
   "note": "exact real arithmetic; failures included"
  },
  {
   "property": "C103",
   "status": "proved",
   "theorems": [
    "Verif.SiteTime.refraction_lowers",
    "Verif.SiteTime.meeus_raises",
    "Verif.SiteTime.conditions_ignored",
    "Verif.SiteTime.no_date_no_refraction",
    "Verif.SiteTime.azimuth_unchanged",
    "Verif.SiteTime.apparent_lower"
   ],
   "note": "real arithmetic; precession to the date is not modelled"
  },
  {
   "property": "C104",
   "status": "proved",
   "theorems": [
    "Verif.Ccd.reach_inv",
    "Verif.Ccd.scale_ok",
    "Verif.Ccd.activate_shows",
    "Verif.Ccd.centre_range",
    "Verif.Ccd.edit_spec",
    "Verif.Ccd.edit_reaches",
    "Verif.Ccd.apply_writes",
    "Verif.Ccd.apply_reread",
    "Verif.Ccd.fits_range_not_square",
    "Verif.Ccd.fits_range_transposed",
    "Verif.Ccd.stats_lost",
    "Verif.Ccd.without_stats",
    "Verif.Ccd.stats_fresh",
    "Verif.Ccd.stats_stale",
    "Verif.Ccd.replace_spec",
    "Verif.Ccd.clipThreshold_spec",
    "Verif.Ccd.clipThreshold_rejects",
    "Verif.Ccd.clipOutliers_within",
    "Verif.Ccd.clipSigma_spec",
    "Verif.Ccd.clipSigma_ignores_fullsig",
    "Verif.Ccd.offset_min",
    "Verif.Ccd.offset_global",
    "Verif.Ccd.create_ignores_range",
    "Verif.Ccd.create_fits_scaling",
    "Verif.Ccd.create_scaled",
    "Verif.Ccd.load_loses_edits",
    "Verif.Ccd.load_loses_edits_counterexample",
    "Verif.Ccd.replaceData_fits",
    "Verif.Ccd.replaceData_lost"
   ],
   "note": "masks, several HDUs and applyChangesOnActivate are not modelled and not in the statement"
  },
  {
   "property": "C105",
   "status": "proved",
   "theorems": [
    "Verif.Ccd.scalings_undo",
    "Verif.Ccd.surfaceBrightness_undoes",
    "Verif.Ccd.sb_magnitudes",
    "Verif.Ccd.sb_zeropoint_sign",
    "Verif.Ccd.scalings_redo",
    "Verif.Ccd.asinh_roundtrip",
    "Verif.Ccd.expo_counterexample",
    "Verif.Ccd.proper_scalings",
    "Verif.Ccd.power_identity",
    "Verif.Ccd.log_range",
    "Verif.Ccd.log_range_image",
    "Verif.Ccd.log_monotone",
    "Verif.Ccd.log_fails"
   ],
   "note": "exact real arithmetic; failures included"
  },
  {
   "property": "C106",
   "status": "proved",
   "theorems": [
    "Verif.Ccd.limited_between",
    "Verif.Ccd.poisson_faithful",
    "Verif.Ccd.gaussian_faithful",
    "Verif.Ccd.uniform_faithful",
    "Verif.Ccd.ccd_noise",
    "Verif.Ccd.snr_poisson"
   ],
   "note": "moments of numpy.random trusted; exact conditions"
  },
  {
   "property": "C107",
   "status": "proved",
   "theorems": [
    "Verif.Ccd.bias_frame_region",
    "Verif.Ccd.bias_callable_ignores_region",
    "Verif.Ccd.overscan_subtracts_signal",
    "Verif.Ccd.overscan_kept",
    "Verif.Ccd.yaxis_transposes",
    "Verif.Ccd.bias_nothing",
    "Verif.Ccd.replaceData_lost",
    "Verif.Ccd.replaceData_fits"
   ],
   "note": "exact real arithmetic; failures included"
  },
  {
   "property": "C108",
   "status": "proved",
   "theorems": [
    "Verif.Ccd.sigclip_keeps",
    "Verif.Ccd.sigclip_low_counterexample",
    "Verif.Ccd.sigclip_needs_images",
    "Verif.Ccd.weights_sum",
    "Verif.Ccd.weights_ignore_sigclip",
    "Verif.Ccd.weights_mean",
    "Verif.Ccd.shifted_moves",
    "Verif.Ccd.trim_exact",
    "Verif.Ccd.trim_counterexamples",
    "Verif.Ccd.flatten_scene",
    "Verif.Ccd.flatten_scale",
    "Verif.Ccd.flatten_none"
   ],
   "note": "whole-pixel shifts, real arithmetic"
  },
  {
   "property": "C109",
   "status": "proved",
   "theorems": [
    "Verif.EphemObj.warn_iff",
    "Verif.EphemObj.warn_content",
    "Verif.EphemObj.setJd_spec",
    "Verif.EphemObj.call_many",
    "Verif.EphemObj.call_many_get",
    "Verif.EphemObj.call_one",
    "Verif.EphemObj.call_none",
    "Verif.EphemObj.call_converts",
    "Verif.EphemObj.call_error",
    "Verif.EphemObj.call_restores",
    "Verif.EphemObj.call_warnings",
    "Verif.EphemObj.call_warns_again",
    "Verif.EphemObj.history",
    "Verif.EphemObj.range_spec",
    "Verif.EphemObj.table_undisturbed",
    "Verif.EphemObj.table_coords"
   ],
   "note": "calendar conversion, clock, subclasses' coordinates and conversions are parameters; restoring the date repeats a warning if the old date is outside the range"
  },
  {
   "property": "C11",
   "status": "proved",
   "theorems": [
    "Verif.Catalog.forest_links_consistent",
    "Verif.Catalog.reorder_negative_breaks_links"
   ],
   "note": "for all histories of creation, parent=, addChild, removeChild, mergeNode, and reorderChildren with non-negative indices; negative reorder indices break it (counterexample)"
  },
  {
   "property": "C110",
   "status": "proved",
   "theorems": [
    "Verif.ProperMotion.arcsec",
    "Verif.ProperMotion.history",
    "Verif.ProperMotion.create_position",
    "Verif.ProperMotion.position",
    "Verif.ProperMotion.date_roundtrip",
    "Verif.ProperMotion.drastar_roundtrip",
    "Verif.ProperMotion.cos_dec_ne_zero",
    "Verif.ProperMotion.epoch0_ignored",
    "Verif.ProperMotion.epoch0_counterexample",
    "Verif.ProperMotion.fixed"
   ],
   "note": "real arithmetic; false: assigning epoch0 later has no effect"
  },
  {
   "property": "C111",
   "status": "proved",
   "theorems": [
    "Verif.Kepler.element_polynomial",
    "Verif.Kepler.angles_consistent",
    "Verif.Kepler.construct_reads",
    "Verif.Kepler.construct_rejects",
    "Verif.Kepler.missing_angles",
    "Verif.Kepler.kepler_unique",
    "Verif.Kepler.kepler_stable",
    "Verif.Kepler.guess_accuracy",
    "Verif.Kepler.eccentric_spec",
    "Verif.Kepler.default_tolerance",
    "Verif.Kepler.default_tolerance_vacuous",
    "Verif.Kepler.trueAnomaly_spec",
    "Verif.Kepler.distance_spec",
    "Verif.Kepler.apsides",
    "Verif.Kepler.period_third_law",
    "Verif.Kepler.position_spec",
    "Verif.Kepler.position_geometry",
    "Verif.Kepler.phase_spec",
    "Verif.Kepler.phase_range",
    "Verif.Kepler.phase_extremes",
    "Verif.Kepler.moonPhase_spec",
    "Verif.Kepler.default_phase_fails",
    "Verif.Kepler.corrections_never",
    "Verif.Kepler.unknown_method"
   ],
   "note": "fsolve is a parameter with a specification"
  },
  {
   "property": "C112",
   "status": "proved",
   "theorems": [
    "Verif.EarthSeries.triples_append",
    "Verif.EarthSeries.triples_length",
    "Verif.EarthSeries.triples_entries",
    "Verif.EarthSeries.pad_triples",
    "Verif.EarthSeries.pad_neutral",
    "Verif.EarthSeries.velocity_is_derivative",
    "Verif.EarthSeries.velocity_kms",
    "Verif.EarthSeries.kms_factor",
    "Verif.EarthSeries.earth_object",
    "Verif.EarthSeries.warning_iff",
    "Verif.EarthSeries.bary_helio",
    "Verif.EarthSeries.geocentric_off_by_sun",
    "Verif.EarthSeries.geocentric_counterexample",
    "Verif.EarthSeries.tilt_length",
    "Verif.EarthSeries.tilt_equinox"
   ],
   "note": "for arbitrary tables of coefficients"
  },
  {
   "property": "C113",
   "status": "proved",
   "theorems": [
    "Verif.Profiles.hernquist_mass",
    "Verif.Profiles.jaffe_mass",
    "Verif.Profiles.plummer_mass",
    "Verif.Profiles.nfw_mass",
    "Verif.Profiles.nfw_shell_counterexample",
    "Verif.Profiles.nfw_alphaBetaGamma",
    "Verif.Profiles.hernquist_jaffe_alphaBetaGamma",
    "Verif.Profiles.moffat_fwhm",
    "Verif.Profiles.moffat_total",
    "Verif.Profiles.burkert_centre",
    "Verif.Profiles.einasto_slope",
    "Verif.Profiles.king_tidal",
    "Verif.Profiles.king_beyond_counterexample",
    "Verif.Profiles.disks",
    "Verif.NfwProjected.nfwProjected_rings",
    "Verif.NfwProjected.nfwProjected_circle",
    "Verif.NfwProjected.nfwProjected_fallback"
   ],
   "note": "exact real arithmetic; failures included"
  },
  {
   "property": "C114",
   "status": "proved",
   "theorems": [
    "Verif.Nfw.mass_is_mass",
    "Verif.Nfw.rhoMean_is_mean",
    "Verif.Nfw.rhoMean_decreasing",
    "Verif.Nfw.virial_unique",
    "Verif.Nfw.getRv_spec",
    "Verif.Nfw.setC_mass",
    "Verif.Nfw.setC_radius",
    "Verif.Nfw.setC_both",
    "Verif.Nfw.setC_neither",
    "Verif.Nfw.getC_stale_counterexample",
    "Verif.Nfw.getV_spec",
    "Verif.Nfw.getVmax_spec",
    "Verif.Nfw.createVmaxRvmax_radius_counterexample",
    "Verif.Nfw.rvir_mvir",
    "Verif.Nfw.mvir_vvir",
    "Verif.Nfw.vvir_vmax",
    "Verif.Nfw.mvir_vmax",
    "Verif.Nfw.vmax_rvir_redshift",
    "Verif.Nfw.mvirToCvir_spec",
    "Verif.Nfw.create_spec",
    "Verif.Nfw.cvir_fails_counterexample"
   ],
   "note": "the numerical inverse is a parameter with a specification; exact, failures included"
  },
  {
   "property": "C115",
   "status": "proved",
   "theorems": [
    "Verif.Schechter.lum_derivative",
    "Verif.Schechter.lum_integral",
    "Verif.Schechter.mag_lum",
    "Verif.Schechter.mag_true_derivative",
    "Verif.Schechter.mag_derivative_counterexample",
    "Verif.Schechter.mag_integral",
    "Verif.Schechter.mag_zero_counterexample",
    "Verif.Schechter.mag_infinite",
    "Verif.Schechter.mag_inf_counterexample",
    "Verif.Sersic.cache_transparent",
    "Verif.Sersic.at_re",
    "Verif.Sersic.setA0_spec",
    "Verif.Sersic.sersic_einasto",
    "Verif.Sersic.sersic_light",
    "Verif.Sersic.sersic_total",
    "Verif.Sersic.half_light",
    "Verif.Sersic.exact_bn_unique",
    "Verif.Sersic.default_half_light",
    "Verif.Sersic.estimate_half",
    "Verif.Sersic.foreign_index",
    "Verif.Sersic.sb_roundtrip",
    "Verif.Sersic.deVaucouleurs_fails"
   ],
   "note": "scipy's incomplete gamma functions are their integrals; pymodelfit itself is not in the repository"
  },
  {
   "property": "C116",
   "status": "proved",
   "theorems": [
    "Verif.Blackbody.lambda_nu",
    "Verif.Blackbody.unit_conserves",
    "Verif.Blackbody.energy_counterexample",
    "Verif.Blackbody.setFlux_spec",
    "Verif.Blackbody.getFlux_spec",
    "Verif.Blackbody.setPeak_spec",
    "Verif.Blackbody.wien_roundtrip",
    "Verif.Blackbody.planck_max",
    "Verif.Blackbody.wien_frequency",
    "Verif.Blackbody.wien_wavelength",
    "Verif.Blackbody.bose_integral",
    "Verif.Blackbody.stefan_boltzmann",
    "Verif.Blackbody.instance_sbLaw_fails"
   ],
   "note": "exact real arithmetic; failures included"
  },
  {
   "property": "C117",
   "status": "proved",
   "theorems": [
    "Verif.CmdTables.band_kept",
    "Verif.CmdTables.color_kept",
    "Verif.CmdTables.table_true",
    "Verif.CmdTables.under_second_measured",
    "Verif.CmdTables.order_matters",
    "Verif.CmdTables.self_color",
    "Verif.CmdTables.length_checked"
   ],
   "note": "exact, failures included (see DESIGN, defects)"
  },
  {
   "property": "C118",
   "status": "proved",
   "theorems": [
    "Verif.Cmd.offsets_documented",
    "Verif.Cmd.demo_hypotheses"
   ],
   "note": "For every reachable state; non-finite offsets (zero range for a negative weight, negative location weight, half-measured colours) are outside the statement. numpy arithmetic over the reals."
  },
  {
   "property": "C119",
   "status": "proved",
   "theorems": [
    "Verif.Cmd.offsets_current",
    "Verif.Cmd.offsets_current_new",
    "Verif.Cmd.drops",
    "Verif.Cmd.stale_forever",
    "Verif.Cmd.center_stale"
   ],
   "note": "exact; stale_forever and center_stale are the limits in the statement"
  },
  {
   "property": "C12",
   "status": "proved",
   "theorems": [
    "Verif.Catalog.setParent_cycle_iff",
    "Verif.Catalog.addChild_spec",
    "Verif.Catalog.setParent_moves",
    "Verif.Catalog.setParent_none",
    "Verif.Catalog.setParent_action"
   ],
   "note": ""
  },
  {
   "property": "C120",
   "status": "proved",
   "theorems": [
    "Verif.Cmd.colors_distance_free",
    "Verif.Cmd.distance_shift",
    "Verif.Cmd.fid_color",
    "Verif.Cmd.fid_moves",
    "Verif.Cmd.fid_all",
    "Verif.Cmd.fid_named"
   ],
   "note": "The cosmological distance setter itself is C84-C86."
  },
  {
   "property": "C121",
   "status": "proved",
   "theorems": [
    "Verif.Cmd.fidnames_partition",
    "Verif.Cmd.fidnames_one_point",
    "Verif.Cmd.names_count",
    "Verif.Cmd.groups_stale",
    "Verif.Cmd.tuple_two_bands",
    "Verif.Cmd.weights_need_bands",
    "Verif.Cmd.data_drops_weights",
    "Verif.Cmd.half_color_nan",
    "Verif.Cmd.band_by_index",
    "Verif.Cmd.locations_set",
    "Verif.Cmd.unmeasured_refused",
    "Verif.Cmd.data_stored",
    "Verif.Cmd.data_drops_locations"
   ],
   "note": "exact, failures included (see DESIGN, defects)"
  },
  {
   "property": "C122",
   "status": "proved",
   "theorems": [
    "Verif.PhotModel.fwhm_set",
    "Verif.PhotModel.psf_fit_position",
    "Verif.PhotModel.mag_flux_inverse",
    "Verif.PhotModel.totalmag_wrong",
    "Verif.PhotModel.points_on_ellipse",
    "Verif.PhotModel.ellipse_complete",
    "Verif.PhotModel.exchange_same",
    "Verif.PhotModel.fit_ok",
    "Verif.PhotModel.fit_angle_fails",
    "Verif.PhotModel.eccentricity_nan",
    "Verif.PhotModel.level_lost",
    "Verif.PhotModel.totalflux_set",
    "Verif.PhotModel.totalmag_set",
    "Verif.PhotModel.text_norm_broken",
    "Verif.PhotModel.norm_unique"
   ],
   "note": "exact real arithmetic; failures included"
  },
  {
   "property": "C123",
   "status": "proved",
   "theorems": [
    "Verif.Sextractor.options_roundtrip",
    "Verif.Sextractor.unknown_refused",
    "Verif.Sextractor.unknown_param_refused",
    "Verif.Sextractor.two_words_lost",
    "Verif.Sextractor.empty_lost",
    "Verif.Sextractor.last_char_lost",
    "Verif.Sextractor.params_roundtrip"
   ],
   "note": "exact for the one-word values; the limits are theorems"
  },
  {
   "property": "C124",
   "status": "proved",
   "theorems": [
    "Verif.Sextractor.names_count_up",
    "Verif.Sextractor.overwrites_anyway",
    "Verif.Sextractor.name_part_lost",
    "Verif.Sextractor.params_beside"
   ],
   "note": "number syntax is a parameter with its round trip; limits are theorems"
  },
  {
   "property": "C125",
   "status": "proved",
   "theorems": [
    "Verif.Projects.projects_history",
    "Verif.Projects.operations_accepted",
    "Verif.Projects.equals_name_lost",
    "Verif.Projects.equals_first_breaks",
    "Verif.Projects.stays_broken",
    "Verif.ConfigFile.classify_written",
    "Verif.ConfigComments.every_line_kept",
    "Verif.ConfigComments.duplicate_refused",
    "Verif.ConfigComments.comments_survive_add"
   ],
   "note": "exact, failures included (see DESIGN, defects)"
  },
  {
   "property": "C126",
   "status": "proved",
   "theorems": [
    "Verif.Projects.crash_between_lines",
    "Verif.Projects.crash_loses_all",
    "Verif.Projects.crash_wrong_path"
   ],
   "note": "crash points between and inside lines; limits are theorems"
  },
  {
   "property": "C127",
   "status": "proved",
   "theorems": [
    "Verif.ProjectDirs.nothing_overwritten",
    "Verif.ProjectDirs.project_added",
    "Verif.ProjectDirs.failure_keeps_registry",
    "Verif.ProjectDirs.add_succeeds",
    "Verif.ProjectDirs.default_script",
    "Verif.ProjectDirs.add_again",
    "Verif.ProjectDirs.nested_fails",
    "Verif.ConfigComments.relative_paths",
    "Verif.ConfigComments.registered_text_denotes",
    "Verif.ConfigComments.registered_plain"
   ],
   "note": "POSIX paths without links"
  },
  {
   "property": "C128",
   "status": "proved",
   "theorems": [
    "Verif.Installer.install_success",
    "Verif.Installer.install_good",
    "Verif.Installer.failed_installation",
    "Verif.Installer.version_fails",
    "Verif.Installer.install_error_wrong",
    "Verif.Installer.build_failure_unknown",
    "Verif.Installer.broken_file_stays",
    "Verif.Installer.prefix_lost",
    "Verif.Installer.endless_download"
   ],
   "note": "exact, failures included (see DESIGN, defects)"
  },
  {
   "property": "C129",
   "status": "proved",
   "theorems": [
    "Verif.VOTable.tables_come_back",
    "Verif.VOTable.field_extracted",
    "Verif.VOTable.param_extracted",
    "Verif.VOTable.distinct_names_kept",
    "Verif.VOTable.by_number",
    "Verif.VOTable.unknown_refused",
    "Verif.VOTable.renaming_loses_a_table",
    "Verif.VOTable.params_never_returned"
   ],
   "note": "XML events as input, numpy's conversion a parameter"
  },
  {
   "property": "C13",
   "status": "proved",
   "theorems": [
    "Verif.Catalog.subtree_is_finite_tree",
    "Verif.Catalog.visit_all",
    "Verif.Catalog.order_each_node_once",
    "Verif.Catalog.subtrees_are_blocks",
    "Verif.Catalog.visit_only",
    "Verif.Catalog.visit_float_raises"
   ],
   "note": ""
  },
  {
   "property": "C130",
   "status": "proved",
   "theorems": [
    "Verif.VOTable.bad_content_refused",
    "Verif.VOTable.indented_rows_refused",
    "Verif.VOTable.nrows_refused",
    "Verif.VOTable.bit_refused",
    "Verif.VOTable.table_without_data_refused",
    "Verif.VOTable.row_length",
    "Verif.VOTable.several_descriptions_refused",
    "Verif.VOTable.equal_columns_refused"
   ],
   "note": "exact, failures included (see DESIGN, defects)"
  },
  {
   "property": "C131",
   "status": "proved",
   "theorems": [
    "Verif.FieldNode.nodes_sound",
    "Verif.FieldNode.add_exact",
    "Verif.FieldNode.del_fields_exact",
    "Verif.FieldNode.added_once",
    "Verif.FieldNode.refused_add_leaks",
    "Verif.FieldNode.by_position",
    "Verif.FieldNode.iterate_exact",
    "Verif.FieldNode.set_get",
    "Verif.FieldNode.set_frame",
    "Verif.FieldNode.unknown_key",
    "Verif.FieldNode.setToSource_exact"
   ],
   "note": "Field contents as in C17/C18. Limits proved: a field that was removed can never be added again (added_once); a refused addField leaves the attribute replaced (refused_add_leaks); an unknown name with a suffix is an AttributeError"
  },
  {
   "property": "C132",
   "status": "proved",
   "theorems": [
    "Verif.FieldExtract.values_exact",
    "Verif.FieldExtract.mask_exact",
    "Verif.FieldExtract.errors_exact",
    "Verif.FieldExtract.aligned_iff",
    "Verif.FieldExtract.sources_length_iff",
    "Verif.FieldExtract.skip_exact",
    "Verif.FieldExtract.raise_exact",
    "Verif.FieldExtract.siblings_exact",
    "Verif.FieldExtract.skip_sources_fails",
    "Verif.FieldExtract.empty_not_skipped",
    "Verif.FieldExtract.callable_misaligned",
    "Verif.FieldExtract.sources_misaligned"
   ],
   "note": "exact for one field; asrec and several fields at once are not modelled and not in the statement"
  },
  {
   "property": "C133",
   "status": "proved",
   "theorems": [
    "Verif.StructNode.new_exact",
    "Verif.StructNode.altered_exact",
    "Verif.StructNode.unaltered_conforms",
    "Verif.StructNode.revert_exact",
    "Verif.StructNode.revert_loses_values",
    "Verif.StructNode.failed_call_alters"
   ],
   "note": "exact, also about what revert loses"
  },
  {
   "property": "C134",
   "status": "proved",
   "theorems": [
    "Verif.StructNode.pickle_roundtrip",
    "Verif.StructNode.loaded_values",
    "Verif.StructNode.loaded_position",
    "Verif.StructNode.inconsistent_iff",
    "Verif.StructNode.load_exact",
    "Verif.StructNode.removed_derived_returns",
    "Verif.StructNode.altered_loses_values"
   ],
   "note": "exact, for derived values too"
  },
  {
   "property": "C135",
   "status": "proved",
   "theorems": [
    "Verif.ArrayNodes.rows_in_order",
    "Verif.ArrayNodes.wrong_number_refused",
    "Verif.ArrayNodes.rows_matched",
    "Verif.ArrayNodes.filtered_exact",
    "Verif.ArrayNodes.filtered_right",
    "Verif.ArrayNodes.nothing_accepted_fails",
    "Verif.ArrayNodes.unfiltered_exact",
    "Verif.ArrayNodes.names_exact",
    "Verif.ArrayNodes.cells_documented",
    "Verif.ArrayNodes.checked_iff",
    "Verif.ArrayNodes.field_of_column",
    "Verif.ArrayNodes.key_names_column",
    "Verif.ArrayNodes.refused_row_stored",
    "Verif.ArrayNodes.unmatched_row_stored",
    "Verif.ArrayNodes.struct_errors_transposed",
    "Verif.ArrayNodes.struct_errors_fail",
    "Verif.ArrayNodes.star_shifts"
   ],
   "note": "exact, failures included (see DESIGN, defects)"
  },
  {
   "property": "C136",
   "status": "proved",
   "theorems": [
    "Verif.LinkField.value_exact",
    "Verif.LinkField.sources_distinct",
    "Verif.LinkField.set_get",
    "Verif.LinkField.loads_iff",
    "Verif.LinkField.replaced_link_lost",
    "Verif.LinkField.dead_string_link"
   ],
   "note": "exact for Source keys; the failures with strings are theorems"
  },
  {
   "property": "C137",
   "status": "proved",
   "theorems": [
    "Verif.CatSearch.search_exact",
    "Verif.CatSearch.search_fails_iff",
    "Verif.CatSearch.fieldNames_exact",
    "Verif.CatSearch.empty_name_breaks_search"
   ],
   "note": "exact, including when it raises"
  },
  {
   "property": "C138",
   "status": "proved",
   "theorems": [
    "Verif.SedField.shown_exact",
    "Verif.SedField.mask_exact",
    "Verif.SedField.set_keeps_masks",
    "Verif.SedField.mask_by_source_fails",
    "Verif.SedField.delete_shifts",
    "Verif.SedField.getBand_exact",
    "Verif.SedField.current_moves_masks",
    "Verif.SedField.delete_moves_masks"
   ],
   "note": "getFullSED is not modelled and not part of the statement"
  },
  {
   "property": "C139",
   "status": "proved",
   "theorems": [
    "Verif.Frames.transforms_are_rotations",
    "Verif.Frames.cirs_pole",
    "Verif.Frames.no_precession",
    "Verif.Frames.fk5_angles_exact",
    "Verif.Frames.fk5_angles_iff",
    "Verif.Frames.iau76_reversible",
    "Verif.Frames.precession_pole",
    "Verif.Frames.fk5_not_reversible",
    "Verif.Frames.published_precession",
    "Verif.Frames.nutation_exact",
    "Verif.Frames.earth_rotation",
    "Verif.Frames.frame_bias"
   ],
   "note": "tables of nutation, CIO locator and sidereal time are parameters; FK4-FK5 is C143"
  },
  {
   "property": "C14",
   "status": "proved",
   "theorems": [
    "Verif.Catalog.visit_spec",
    "Verif.Catalog.visit_level_excluding_self"
   ],
   "note": "every traversal, filter and includeself; the level order exception is a theorem"
  },
  {
   "property": "C140",
   "status": "proved",
   "theorems": [
    "Verif.Frames.label_only",
    "Verif.Frames.history_path_independent",
    "Verif.Frames.cirs_itrs_history",
    "Verif.Frames.history_keeps_separation",
    "Verif.Frames.builtin_rotating",
    "Verif.Frames.reassign_iff",
    "Verif.Frames.fk_reassign",
    "Verif.Frames.equinox_moves",
    "Verif.Frames.int_epoch_as_float",
    "Verif.Frames.whole_year_jdepoch"
   ],
   "note": "exact real arithmetic; failures included"
  },
  {
   "property": "C141",
   "status": "proved",
   "theorems": [
    "Verif.Frames.after_galactic",
    "Verif.Frames.convert_exact",
    "Verif.Frames.direct_round_trip",
    "Verif.Frames.convert_separation",
    "Verif.Frames.gal_to_icrs_iff",
    "Verif.Frames.gal_to_icrs_wrong"
   ],
   "note": "exact real arithmetic; failures included"
  },
  {
   "property": "C142",
   "status": "proved",
   "theorems": [
    "Verif.Frames.galactic_poles",
    "Verif.Frames.galactic_at_standard_epoch",
    "Verif.Frames.supergalactic_axes",
    "Verif.Frames.ecliptic_axes",
    "Verif.Frames.obliquity_models"
   ],
   "note": "Exact real arithmetic"
  },
  {
   "property": "C143",
   "status": "proved",
   "theorems": [
    "Verif.Frames.inverse_round_trip",
    "Verif.Frames.fk4_standard",
    "Verif.Frames.murray_not_rotation",
    "Verif.Frames.murray_nearly_rotation",
    "Verif.Frames.fk4_not_reversible"
   ],
   "note": "exact real arithmetic; failures included"
  },
  {
   "property": "C144",
   "status": "proved",
   "theorems": [
    "Verif.RectFrames.ecl_unit",
    "Verif.RectFrames.setUnit_exact",
    "Verif.RectFrames.setLength_exact",
    "Verif.RectFrames.toSph_exact",
    "Verif.RectFrames.toRect_exact",
    "Verif.RectFrames.rect_round_trip",
    "Verif.RectFrames.constants_differ",
    "Verif.RectFrames.au_round_trip",
    "Verif.RectFrames.ecl_round_trip"
   ],
   "note": "exact, failures included (see DESIGN, defects)"
  },
  {
   "property": "C145",
   "status": "proved",
   "theorems": [
    "Verif.RectFrames.icrs_to_gcrs",
    "Verif.RectFrames.gcrs_to_icrs_wrong",
    "Verif.RectFrames.no_parallax_round_trip",
    "Verif.RectFrames.gcrs_new_epoch",
    "Verif.RectFrames.setEpochR_exact",
    "Verif.RectFrames.ecl_new_epoch",
    "Verif.RectFrames.separation3d_exact"
   ],
   "note": "exact, failures included (see DESIGN, defects)"
  },
  {
   "property": "C146",
   "status": "proved",
   "theorems": [
    "Verif.EqCtor.init_exact",
    "Verif.EqCtor.dropped_arguments",
    "Verif.EqCtor.unknown_ignored",
    "Verif.EqCtor.positional_eq_keyword",
    "Verif.EqCtor.fk4_epoch"
   ],
   "note": "exact, failures included (see DESIGN, defects)"
  },
  {
   "property": "C147",
   "status": "proved",
   "theorems": [
    "Verif.AirVac.air_to_vacuum_exact",
    "Verif.AirVac.air_to_vacuum_increasing",
    "Verif.AirVac.vacuum_to_air_exact",
    "Verif.AirVac.vacuum_to_air_not_monotone",
    "Verif.AirVac.vacuum_to_air_increasing",
    "Verif.AirVac.round_trip",
    "Verif.AirVac.round_trip_inaccurate",
    "Verif.AirVac.shapes"
   ],
   "note": "exact real arithmetic; failures included"
  },
  {
   "property": "C148",
   "status": "proved",
   "theorems": [
    "Verif.SpecFeature.center_exact",
    "Verif.SpecFeature.feature_exact",
    "Verif.SpecFeature.pixels_exist",
    "Verif.SpecFeature.extent_order",
    "Verif.SpecFeature.flat_excess",
    "Verif.SpecFeature.nothing_inside",
    "Verif.SpecFeature.edge_refused",
    "Verif.SpecFeature.edge_two",
    "Verif.SpecFeature.no_continuum",
    "Verif.SpecFeature.tweak_exact",
    "Verif.SpecFeature.compute_refused"
   ],
   "note": "exact real arithmetic; failures included"
  },
  {
   "property": "C149",
   "status": "proved",
   "theorems": [
    "Verif.SpecAxis.single_pixel",
    "Verif.SpecAxis.dx_exact",
    "Verif.SpecAxis.dx_mean",
    "Verif.SpecAxis.dx_one_pixel",
    "Verif.SpecAxis.dx_empty",
    "Verif.SpecAxis.even_linear",
    "Verif.SpecAxis.linear_bounds",
    "Verif.SpecAxis.linear_iff_even",
    "Verif.SpecAxis.logarithmic_iff",
    "Verif.SpecAxis.shifted_axes_match",
    "Verif.SpecAxis.matched_iff_shift",
    "Verif.SpecAxis.lengths_differ"
   ],
   "note": "real arithmetic; isXMatched and one-pixel axes as they are (see DESIGN, defects)"
  },
  {
   "property": "C15",
   "status": "proved",
   "theorems": [
    "Verif.Catalog.nnodes_counts"
   ],
   "note": ""
  },
  {
   "property": "C150",
   "status": "proved",
   "theorems": [
    "Verif.SpecAxis.linearize_range",
    "Verif.SpecAxis.logify_range",
    "Verif.SpecAxis.interp_between",
    "Verif.SpecAxis.interp_left",
    "Verif.SpecAxis.interp_right",
    "Verif.SpecAxis.interp_node",
    "Verif.SpecAxis.interp_range",
    "Verif.SpecAxis.resample_exact",
    "Verif.SpecAxis.resample_own",
    "Verif.SpecAxis.linearize_exact",
    "Verif.SpecAxis.linearize_even",
    "Verif.SpecAxis.logify_exact"
   ],
   "note": "Linear interpolation on increasing axes, in real arithmetic; splines not modelled"
  },
  {
   "property": "C151",
   "status": "proved",
   "theorems": [
    "Verif.SpecAxis.align_empty",
    "Verif.SpecAxis.template_exact",
    "Verif.SpecAxis.align_exact",
    "Verif.SpecAxis.align_common_axis",
    "Verif.SpecAxis.super_is_sub",
    "Verif.SpecAxis.align_refused",
    "Verif.SpecAxis.align_copy",
    "Verif.SpecAxis.super_degrades"
   ],
   "note": "exact for every accepted mode; 'super' is not what its documentation says (super_is_sub)"
  },
  {
   "property": "C152",
   "status": "proved",
   "theorems": [
    "Verif.SpecFeature.add_exact",
    "Verif.SpecFeature.remove_exact",
    "Verif.SpecFeature.remove_by_name",
    "Verif.SpecFeature.remove_location",
    "Verif.SpecFeature.before_iff",
    "Verif.SpecFeature.before_nan",
    "Verif.SpecFeature.assign_features",
    "Verif.SpecFeature.assign_refused",
    "Verif.SpecFeature.center_error_lost"
   ],
   "note": "exact, failures included (see DESIGN, defects)"
  },
  {
   "property": "C153",
   "status": "proved",
   "theorems": [
    "Verif.ConfigInterp.interpolate_exact",
    "Verif.ConfigInterp.interpolate_error",
    "Verif.ConfigInterp.interpolation_ends",
    "Verif.ConfigInterp.fetch_exact",
    "Verif.ConfigInterp.cycle_no_meaning",
    "Verif.ConfigInterp.getitem_string",
    "Verif.ConfigInterp.getitem_raw",
    "Verif.ConfigInterp.entries_exact",
    "Verif.ConfigInterp.engine_sticks",
    "Verif.ConfigInterp.usable_iff",
    "Verif.ConfigInterp.fetch_level",
    "Verif.ConfigInterp.unknown_engine",
    "Verif.ConfigInterp.scalar_default_switches_off",
    "Verif.ConfigInterp.match_iff"
   ],
   "note": "exact; Python's recursion limit and unrepr values are not modelled"
  },
  {
   "property": "C154",
   "status": "proved",
   "theorems": [
    "Verif.ConfigSection.wf_step_iff",
    "Verif.ConfigSection.wf_history",
    "Verif.ConfigSection.set_exact",
    "Verif.ConfigSection.refused_value",
    "Verif.ConfigSection.del_exact",
    "Verif.ConfigSection.rename_exact",
    "Verif.ConfigSection.rename_fails",
    "Verif.ConfigSection.items_exact",
    "Verif.ConfigSection.items_total",
    "Verif.ConfigSection.popitem_exact",
    "Verif.ConfigSection.pop_exact",
    "Verif.ConfigSection.setdefault_exact",
    "Verif.ConfigSection.update_exact",
    "Verif.ConfigSection.kind_change_keeps_list",
    "Verif.ConfigSection.rename_onto_existing",
    "Verif.ConfigSection.clear_restore",
    "Verif.ConfigSection.restore_exact",
    "Verif.ConfigSection.update_stops",
    "Verif.ConfigSection.set_defaults"
   ],
   "note": "wf_step_iff is exact per call, hence all histories. Comments and inline comments are one dictionary"
  },
  {
   "property": "C155",
   "status": "proved",
   "theorems": [
    "Verif.TextTable.codes_exact",
    "Verif.TextTable.codes_all_sourced",
    "Verif.TextTable.clean_exact",
    "Verif.TextTable.clean_other",
    "Verif.TextTable.annotation_exact",
    "Verif.TextTable.sources_of_object"
   ],
   "note": "exact; codes_all_sourced is the failing case. Up to 31 sources (np.choose)"
  },
  {
   "property": "C156",
   "status": "proved",
   "theorems": [
    "Verif.TextTable.shown_cell",
    "Verif.TextTable.caption_exact",
    "Verif.TextTable.details_checked",
    "Verif.TextTable.latex_exact",
    "Verif.TextTable.latex_empty",
    "Verif.TextTable.ascii_exact",
    "Verif.TextTable.ascii_details_shifted",
    "Verif.TextTable.deluxe_exact",
    "Verif.TextTable.deluxe_needs_details",
    "Verif.TextTable.ascii_default_fails",
    "Verif.TextTable.sort_fails",
    "Verif.TextTable.errors_with_sources_fail",
    "Verif.TextTable.log_errors"
   ],
   "note": "exact text; failures included"
  },
  {
   "property": "C157",
   "status": "proved",
   "theorems": [
    "Verif.AdsCache.known_no_request",
    "Verif.AdsCache.unknown_one_request",
    "Verif.AdsCache.fetched_once",
    "Verif.AdsCache.no_code",
    "Verif.AdsCache.clear_result"
   ],
   "note": "exact after every history and for every server"
  },
  {
   "property": "C158",
   "status": "proved",
   "theorems": [
    "Verif.AdsCache.bibcode_exact",
    "Verif.AdsCache.code_exact",
    "Verif.AdsCache.code_line",
    "Verif.AdsCache.arxiv_url",
    "Verif.AdsCache.astroph_url",
    "Verif.AdsCache.doi_url",
    "Verif.AdsCache.plain_url",
    "Verif.AdsCache.preprint_bibcode",
    "Verif.AdsCache.only_exact",
    "Verif.AdsCache.authors_exact"
   ],
   "note": "exact, failures included (see DESIGN, defects)"
  },
  {
   "property": "C159",
   "status": "proved",
   "theorems": [
    "Verif.PlotAction.temporary",
    "Verif.PlotAction.unknown_keyword",
    "Verif.PlotAction.read_only_leaks",
    "Verif.PlotAction.construct_exact",
    "Verif.PlotAction.unpickle_exact"
   ],
   "note": "exact, failures included (see DESIGN, defects)"
  },
  {
   "property": "C16",
   "status": "proved",
   "theorems": [
    "Verif.Catalog.reorder_exact",
    "Verif.Catalog.reorder_error_unchanged",
    "Verif.Catalog.reorder_permutes",
    "Verif.Catalog.reorder_reverse_twice",
    "Verif.Catalog.reorder_inverse_raises"
   ],
   "note": "every integer sequence; distinct children are given by C11"
  },
  {
   "property": "C160",
   "status": "proved",
   "theorems": [
    "Verif.PlotAction.points_exact",
    "Verif.PlotAction.errorbars_exact",
    "Verif.PlotAction.plots_that_fail",
    "Verif.PlotAction.graph_single"
   ],
   "note": "ties when sorting in unspecified order"
  },
  {
   "property": "C161",
   "status": "proved",
   "theorems": [
    "Verif.ObsDb.registered",
    "Verif.ObsDb.line_exact",
    "Verif.ObsDb.load_ok_iff",
    "Verif.ObsDb.bad_line",
    "Verif.ObsDb.blocks_exist",
    "Verif.ObsDb.sexagesimal",
    "Verif.ObsDb.stored_right_iff",
    "Verif.ObsDb.eso_misplaced",
    "Verif.ObsDb.east_spec"
   ],
   "note": "registered and load_ok_iff are exact; stored_right_iff says which latitudes are right"
  },
  {
   "property": "C162",
   "status": "proved",
   "theorems": [
    "Verif.SiteAttr.accepted_iff",
    "Verif.SiteAttr.new_site",
    "Verif.SiteAttr.time_zone",
    "Verif.SiteAttr.ranges_stay",
    "Verif.SiteAttr.caller_objects",
    "Verif.SiteAttr.bad_latitude",
    "Verif.SiteAttr.bad_altitude_changes_angles",
    "Verif.SiteAttr.assignment_unchecked",
    "Verif.SiteAttr.assigned_object_shared",
    "Verif.SiteAttr.same_object_loses_range",
    "Verif.SiteAttr.geocentric_roundtrip"
   ],
   "note": "exact for numbers and angle objects; strings as angles are C169"
  },
  {
   "property": "C163",
   "status": "proved",
   "theorems": [
    "Verif.StellarMass.ratio_increasing",
    "Verif.StellarMass.sun_unit",
    "Verif.StellarMass.mstar_exact",
    "Verif.StellarMass.missing_colour",
    "Verif.StellarMass.right_iff_order",
    "Verif.StellarMass.cpython2_order",
    "Verif.StellarMass.cpython2_wrong",
    "Verif.StellarMass.mean_exact"
   ],
   "note": "exact; right_iff_order says when it is right, cpython2_wrong that it is not. ML_ratio_from_color always raises TypeError and is not modelled"
  },
  {
   "property": "C164",
   "status": "proved",
   "theorems": [
    "Verif.ConfigMerge.merge_exact",
    "Verif.ConfigMerge.merge_keys",
    "Verif.ConfigMerge.merge_identity",
    "Verif.ConfigMerge.dict_exact",
    "Verif.ConfigMerge.walk_result",
    "Verif.ConfigMerge.walk_raises",
    "Verif.ConfigMerge.walk_quiet",
    "Verif.ConfigMerge.walk_broken",
    "Verif.ConfigMerge.example_merge"
   ],
   "note": "exact, failures included (see DESIGN, defects)"
  },
  {
   "property": "C165",
   "status": "proved",
   "theorems": [
    "Verif.PubPrep.document_name",
    "Verif.PubPrep.choose_ok",
    "Verif.PubPrep.choose_exact",
    "Verif.PubPrep.arxiv_outside",
    "Verif.PubPrep.arxiv_exact",
    "Verif.PubPrep.arxiv_tex",
    "Verif.PubPrep.arxiv_nested",
    "Verif.PubPrep.arxiv_flat",
    "Verif.PubPrep.example_arxiv",
    "Verif.PubPrep.example_paper"
   ],
   "note": "reading the document is a parameter; disk errors are not modelled"
  },
  {
   "property": "C166",
   "status": "proved",
   "theorems": [
    "Verif.PubPrep.document_name",
    "Verif.PubPrep.apj_outside",
    "Verif.PubPrep.apj_exact",
    "Verif.PubPrep.apj_figure",
    "Verif.PubPrep.names_distinct",
    "Verif.PubPrep.newBibs_spec",
    "Verif.PubPrep.newName_inj",
    "Verif.PubPrep.newNames_spec",
    "Verif.PubPrep.setNames_spec",
    "Verif.PubPrep.apj_needs",
    "Verif.PubPrep.example_apj"
   ],
   "note": "exact for every order of the dictionary"
  },
  {
   "property": "C167",
   "status": "proved",
   "theorems": [
    "Verif.DustMap.array_exact",
    "Verif.DustMap.scalar_exact",
    "Verif.DustMap.interpolated_value",
    "Verif.DustMap.lengths",
    "Verif.DustMap.equal_area",
    "Verif.DustMap.pole_centre",
    "Verif.DustMap.project_inj",
    "Verif.DustMap.nearest_pixel",
    "Verif.DustMap.map_names",
    "Verif.DustMap.single_file_fails",
    "Verif.DustMap.galactic_centre",
    "Verif.DustMap.radec_fails"
   ],
   "note": "exact real arithmetic; failures included"
  },
  {
   "property": "C168",
   "status": "proved",
   "theorems": [
    "Verif.GaussHermite.values_exact",
    "Verif.GaussHermite.gaussian_profile",
    "Verif.GaussHermite.moment_self",
    "Verif.GaussHermite.moment_refused",
    "Verif.GaussHermite.orthogonal",
    "Verif.GaussHermite.norm_pos",
    "Verif.GaussHermite.H_degree",
    "Verif.GaussHermite.plain_gaussian"
   ],
   "note": "real arithmetic, integration over all velocities; plain_gaussian says what happens without coefficients"
  },
  {
   "property": "C169",
   "status": "proved",
   "theorems": [
    "Verif.AngleParse.match_exact",
    "Verif.AngleParse.match_none",
    "Verif.AngleParse.dec_exact",
    "Verif.AngleParse.form_unique",
    "Verif.AngleParse.plain_number",
    "Verif.AngleParse.with_unit",
    "Verif.AngleParse.colons",
    "Verif.AngleParse.blanks",
    "Verif.AngleParse.two_numbers",
    "Verif.AngleParse.minutes",
    "Verif.AngleParse.signed_minutes",
    "Verif.AngleParse.refused",
    "Verif.AngleParse.empty_text",
    "Verif.AngleParse.make_text",
    "Verif.AngleParse.make_other",
    "Verif.AngleParse.strip_pad",
    "Verif.AngleParse.numVal_digits",
    "Verif.AngleParse.isNum_sample"
   ],
   "note": "numbers with exponents or spaces inside are not modelled"
  },
  {
   "property": "C17",
   "status": "proved",
   "theorems": [
    "Verif.Field.sources_unique_step_iff",
    "Verif.Field.field_sources_unique",
    "Verif.Field.setCurrKey_exact",
    "Verif.Field.field_sources_unique_on_domain",
    "Verif.Field.lookup_unique",
    "Verif.Field.insert_source_duplicates"
   ],
   "note": "exact condition per call, hence all histories"
  },
  {
   "property": "C170",
   "status": "proved",
   "theorems": [
    "Verif.AngleText.secText_spec",
    "Verif.AngleText.secText_shape",
    "Verif.AngleText.dmsText_exact",
    "Verif.AngleText.dms_readback",
    "Verif.AngleText.str_readback",
    "Verif.AngleText.canonical_readback",
    "Verif.AngleText.hms_readback",
    "Verif.AngleText.default_unreadable",
    "Verif.AngleText.word_fails",
    "Verif.AngleText.separators",
    "Verif.AngleText.no_zeros",
    "Verif.AngleText.coordString_exact"
   ],
   "note": "exact text; what cannot be read back is proved"
  },
  {
   "property": "C171",
   "status": "proved",
   "theorems": [
    "Verif.PosArrays.radec_exact",
    "Verif.PosArrays.radec_one_fails",
    "Verif.PosArrays.canonical_positions",
    "Verif.PosArrays.angularString_exact",
    "Verif.PosArrays.angularString_hms"
   ],
   "note": "exact, with the failing forms (see DESIGN, defects)"
  },
  {
   "property": "C172",
   "status": "proved",
   "theorems": [
    "Verif.PosArrays.objectArrays_exact",
    "Verif.PosArrays.auto_fails",
    "Verif.PosArrays.offset_exact",
    "Verif.PosArrays.offset_point",
    "Verif.PosArrays.offset_not_projected",
    "Verif.PosArrays.ohat_unit"
   ],
   "note": "exact in real arithmetic; offset_proj_sep is not what it is called (offset_not_projected)"
  },
  {
   "property": "C173",
   "status": "proved",
   "theorems": [
    "Verif.ZFind.lag_exact",
    "Verif.ZFind.lag_logarithmic",
    "Verif.ZFind.lag_zero"
   ],
   "note": "exact in real arithmetic; lag 0 is nan (lag_zero)"
  },
  {
   "property": "C174",
   "status": "proved",
   "theorems": [
    "Verif.ZFind.fit_least",
    "Verif.ZFind.pairs_exact",
    "Verif.ZFind.pairs_only",
    "Verif.ZFind.square_templates",
    "Verif.ZFind.best_exact",
    "Verif.ZFind.zfind_exact",
    "Verif.ZFind.zfind_redshifts",
    "Verif.ZFind.bad_pixel_counts"
   ],
   "note": "exact real arithmetic; failures included"
  },
  {
   "property": "C175",
   "status": "proved",
   "theorems": [
    "Verif.SpecNoise.new_exact",
    "Verif.SpecNoise.history_ok",
    "Verif.SpecNoise.no_noise",
    "Verif.SpecNoise.normal_noise",
    "Verif.SpecNoise.poisson_noise",
    "Verif.SpecNoise.scalar_noise",
    "Verif.SpecNoise.remove_type",
    "Verif.SpecNoise.remove_function",
    "Verif.SpecNoise.resize_fails",
    "Verif.SpecNoise.noise_raises",
    "Verif.SpecNoise.store_function",
    "Verif.SpecNoise.set_restores",
    "Verif.SpecNoise.errors_stale"
   ],
   "note": "exact for each assignment; attributes consistent after any history"
  },
  {
   "property": "C176",
   "status": "proved",
   "theorems": [
    "Verif.SpecFiles.wcs_exact",
    "Verif.SpecFiles.wcs_no_errors",
    "Verif.SpecFiles.wcs_order",
    "Verif.SpecFiles.chosen",
    "Verif.SpecFiles.io_iff",
    "Verif.SpecFiles.bad_header",
    "Verif.SpecFiles.standard_iff",
    "Verif.SpecFiles.row_errors_refused"
   ],
   "note": "exact real arithmetic; failures included"
  },
  {
   "property": "C177",
   "status": "proved",
   "theorems": [
    "Verif.SpecFiles.both_arms",
    "Verif.SpecFiles.one_arm",
    "Verif.SpecFiles.deimos_refused",
    "Verif.SpecFiles.extraction_names",
    "Verif.SpecFiles.sky_aligned",
    "Verif.SpecFiles.columns_differ",
    "Verif.SpecFiles.sky_misplaced",
    "Verif.SpecFiles.smooth_exact",
    "Verif.SpecFiles.all_exact",
    "Verif.SpecFiles.all_mem"
   ],
   "note": "exact; the median filter is a parameter"
  },
  {
   "property": "C178",
   "status": "proved",
   "theorems": [
    "Verif.TextFields.load_exact",
    "Verif.TextFields.field_forms",
    "Verif.TextFields.short_file",
    "Verif.TextFields.delimiter_keeps_newline",
    "Verif.TextFields.write_destroys",
    "Verif.TextFields.dtype_ok"
   ],
   "note": "np.loadtxt, np.dtype and eval are parameters"
  },
  {
   "property": "C179",
   "status": "proved",
   "theorems": [
    "Verif.ConfigValidate.valid_iff",
    "Verif.ConfigValidate.raises_iff",
    "Verif.ConfigValidate.results_exact",
    "Verif.ConfigValidate.settings_after",
    "Verif.ConfigValidate.subs_after",
    "Verif.ConfigValidate.demo_result",
    "Verif.ConfigValidate.demo_preserve",
    "Verif.ConfigValidate.mixed_lost",
    "Verif.ConfigValidate.default_clobbers"
   ],
   "note": "copy=False, values are no dictionaries, no interpolation; list values and stringify=False are not modelled"
  },
  {
   "property": "C18",
   "status": "proved",
   "theorems": [
    "Verif.Field.setCurrKey_moves_to_front",
    "Verif.Field.setCurrObj_replaces_own_source"
   ],
   "note": ""
  },
  {
   "property": "C180",
   "status": "proved",
   "theorems": [
    "Verif.ConfigValidate.flatten_exact",
    "Verif.ConfigValidate.extra_exact",
    "Verif.ConfigValidate.extra_after",
    "Verif.ConfigValidate.demo_reports",
    "Verif.ConfigValidate.value_for_section"
   ],
   "note": "exact"
  },
  {
   "property": "C181",
   "status": "proved",
   "theorems": [
    "Verif.CumPlot.less_than",
    "Verif.CumPlot.greater_than",
    "Verif.CumPlot.less_between",
    "Verif.CumPlot.greater_between",
    "Verif.CumPlot.numbers_count",
    "Verif.CumPlot.fraction_exact",
    "Verif.CumPlot.edges_count"
   ],
   "note": "exact; doplot=False, rational numbers"
  },
  {
   "property": "C182",
   "status": "proved",
   "theorems": [
    "Verif.CumPlot.dims_exact",
    "Verif.CumPlot.split_exact",
    "Verif.CumPlot.split_partition",
    "Verif.CumPlot.steps_exact",
    "Verif.CumPlot.example_split"
   ],
   "note": "The data drawn, not the drawing"
  },
  {
   "property": "C183",
   "status": "proved",
   "theorems": [
    "Verif.PlanetTables.elements_read",
    "Verif.PlanetTables.corrections_read",
    "Verif.PlanetTables.objects_exact",
    "Verif.PlanetTables.correction_never",
    "Verif.PlanetTables.package_corrections",
    "Verif.PlanetTables.example_file"
   ],
   "note": "words of a line are given, float is a parameter"
  },
  {
   "property": "C184",
   "status": "proved",
   "theorems": [
    "Verif.Disks.unrotated",
    "Verif.Disks.rotated",
    "Verif.Disks.peak",
    "Verif.Disks.symmetric",
    "Verif.Disks.scales",
    "Verif.Disks.outside_hint",
    "Verif.Disks.half_hint"
   ],
   "note": "exact real arithmetic; failures included"
  },
  {
   "property": "C185",
   "status": "proved",
   "theorems": [
    "Verif.ConfigAccess.lower_letters",
    "Verif.ConfigAccess.bool_words",
    "Verif.ConfigAccess.bool_others",
    "Verif.ConfigAccess.list_exact",
    "Verif.ConfigAccess.numbers_exact",
    "Verif.ConfigAccess.restore_exact",
    "Verif.ConfigAccess.restore_raises",
    "Verif.ConfigAccess.example_access"
   ],
   "note": "int and float of strings are parameters; default values of a section have different names (a dictionary)"
  },
  {
   "property": "C186",
   "status": "proved",
   "theorems": [
    "Verif.PhotSystems.spectrum_zero",
    "Verif.PhotSystems.scale_exact",
    "Verif.PhotSystems.scale_magnitudes",
    "Verif.PhotSystems.ab_zero",
    "Verif.PhotSystems.vega_offset",
    "Verif.PhotSystems.unknown_system",
    "Verif.PhotSystems.offset_of_name",
    "Verif.PhotSystems.vega_any_case",
    "Verif.PhotSystems.failed_midway"
   ],
   "note": "Over the reals; sort and simps as in C89 (for Vega: sorting commutes with changes of the values, simps is homogeneous); magnitude 0 if the flux of the spectrum is not 0, the magnitude of Vega if its flux is positive; the flux of AB and Vega in the unit of a band is a function of the band"
  },
  {
   "property": "C187",
   "status": "proved",
   "theorems": [
    "Verif.PhotArrays.info_exact",
    "Verif.PhotArrays.one_per_band",
    "Verif.PhotArrays.many_per_band",
    "Verif.PhotArrays.tile_right_iff",
    "Verif.PhotArrays.tile_wrong"
   ],
   "note": "exact real arithmetic; failures included"
  },
  {
   "property": "C188",
   "status": "proved",
   "theorems": [
    "Verif.PhotArrays.simulate_exact",
    "Verif.PhotArrays.simulate_lists",
    "Verif.PhotArrays.int_scale_as_float",
    "Verif.PhotArrays.arrays_fail",
    "Verif.PhotArrays.bad_pixels"
   ],
   "note": "exact real arithmetic; failures included"
  },
  {
   "property": "C189",
   "status": "proved",
   "theorems": [
    "Verif.ConfigMulti.quoted_exact",
    "Verif.ConfigMulti.reads_back_iff",
    "Verif.ConfigMulti.written_read",
    "Verif.ConfigMulti.swapped_quotes",
    "Verif.ConfigMulti.example_multi"
   ],
   "note": "The regular expressions are a backtracking matcher; the constants of the quotes are exchanged in the code, between the other kind every such value would be read back (swapped_quotes)"
  },
  {
   "property": "C19",
   "status": "proved",
   "theorems": [
    "Verif.Derived.read_is_current",
    "Verif.Derived.valid_cache_is_current",
    "Verif.Derived.read_terminates",
    "Verif.Derived.unnotified_change_is_stale",
    "Verif.Derived.check_leaves_stale_value"
   ],
   "note": "exact; failures included (see DESIGN, defects)"
  },
  {
   "property": "C190",
   "status": "proved",
   "theorems": [
    "Verif.ConfigUnrepr.unrepr_iff",
    "Verif.ConfigUnrepr.setting_iff",
    "Verif.ConfigUnrepr.unrepr_errors",
    "Verif.ConfigUnrepr.builder_exact",
    "Verif.ConfigUnrepr.example_unrepr"
   ],
   "note": "The tree of the repr of a value is given by Python's grammar (modelled); equality of keys is a parameter; the two zeros of floats are one"
  },
  {
   "property": "C191",
   "status": "proved",
   "theorems": [
    "Verif.ConfigEncoding.read_unspecified",
    "Verif.ConfigEncoding.read_specified",
    "Verif.ConfigEncoding.bytes_kept",
    "Verif.ConfigEncoding.eight_bit_round_trip",
    "Verif.ConfigEncoding.utf16_written",
    "Verif.ConfigEncoding.lines_utf16",
    "Verif.ConfigEncoding.example_encoding"
   ],
   "note": "little-endian computers; 8-bit codecs are parameters"
  },
  {
   "property": "C192",
   "status": "proved",
   "theorems": [
    "Verif.ConfigTree.parse_iff",
    "Verif.ConfigTree.parse_error",
    "Verif.ConfigTree.written_read",
    "Verif.ConfigTree.load_exact",
    "Verif.ConfigTree.example_tree"
   ],
   "note": "Lines are already classified (C125, C193). Counterexample to 'every bad file is a ConfigObjError' in load_exact."
  },
  {
   "property": "C193",
   "status": "proved",
   "theorems": [
    "Verif.ConfigMarker.plain_exact",
    "Verif.ConfigMarker.name_read_back",
    "Verif.ConfigMarker.never_blank",
    "Verif.ConfigMarker.marker_sound",
    "Verif.ConfigMarker.example_marker"
   ],
   "note": "The regular expression with its backtracking order. Defects are stated exactly (brackets at the ends of names, blank names)."
  },
  {
   "property": "C194",
   "status": "proved",
   "theorems": [
    "Verif.Latitude.ellipse_exact",
    "Verif.Latitude.normal_perp",
    "Verif.Latitude.inverse_exact",
    "Verif.Latitude.monotone",
    "Verif.Latitude.results_in_range",
    "Verif.Latitude.difference_bound",
    "Verif.Latitude.input_exact",
    "Verif.Latitude.text_45",
    "Verif.Latitude.degrees_back"
   ],
   "note": "Real arithmetic. The behaviour for texts and sequences is stated as it is."
  },
  {
   "property": "C195",
   "status": "proved",
   "theorems": [
    "Verif.SpecEdges.cont_exact",
    "Verif.SpecEdges.cont_contains",
    "Verif.SpecEdges.no_window",
    "Verif.SpecEdges.boxcar",
    "Verif.SpecEdges.flux_index",
    "Verif.SpecEdges.turns_exact",
    "Verif.SpecEdges.edgesCont_exact",
    "Verif.SpecEdges.edgesFlux_index",
    "Verif.SpecEdges.example_edges"
   ],
   "note": "Rationals; the IndexError with a continuum is edgesCont_exact. The defects (window=None, boxcar, turning points) are stated exactly."
  },
  {
   "property": "C196",
   "status": "proved",
   "theorems": [
    "Verif.ModelSpec.noiseless",
    "Verif.ModelSpec.redshift",
    "Verif.ModelSpec.noise_exact",
    "Verif.ModelSpec.poisson_exact",
    "Verif.ModelSpec.lines_exact",
    "Verif.ModelSpec.example_lines"
   ],
   "note": "Real arithmetic; curves and random draws are parameters."
  },
  {
   "property": "C197",
   "status": "proved",
   "theorems": [
    "Verif.Spylot.always_current",
    "Verif.Spylot.zoom_exact",
    "Verif.Spylot.limits_contain",
    "Verif.Spylot.delete_last",
    "Verif.Spylot.bad_index",
    "Verif.Spylot.add_nothing",
    "Verif.Spylot.example_spylot"
   ],
   "note": "Rationals instead of floats; the Traits notification rules are trusted (DESIGN). Defects are part of the statement."
  },
  {
   "property": "C198",
   "status": "proved",
   "theorems": [
    "Verif.SpecTarget.in_unit",
    "Verif.SpecTarget.by_offset",
    "Verif.SpecTarget.sign_irrelevant",
    "Verif.SpecTarget.with_band",
    "Verif.SpecTarget.hidden",
    "Verif.SpecTarget.example_priority"
   ],
   "note": "Real arithmetic."
  },
  {
   "property": "C199",
   "status": "proved",
   "theorems": [
    "Verif.SpecTarget.one_role",
    "Verif.SpecTarget.row_exact",
    "Verif.SpecTarget.star_iff",
    "Verif.SpecTarget.second_exact",
    "Verif.SpecTarget.no_guides_left",
    "Verif.SpecTarget.example_rows"
   ],
   "note": "Real arithmetic; the priority and group columns, not the text layout of the file."
  },
  {
   "property": "C20",
   "status": "proved",
   "theorems": [
    "Verif.Derived.notify_terminates",
    "Verif.Derived.notify_invalidates_exactly",
    "Verif.Derived.notify_succeeds",
    "Verif.Derived.change_invalidates_dependents",
    "Verif.Derived.cycle_without_node_raises",
    "Verif.Derived.notifOk_run"
   ],
   "note": "exact; failures included (see DESIGN, defects)"
  },
  {
   "property": "C200",
   "status": "proved",
   "theorems": [
    "Verif.MaskNames.names_distinct",
    "Verif.MaskNames.files_distinct",
    "Verif.MaskNames.unnumbered_stays",
    "Verif.MaskNames.counts",
    "Verif.MaskNames.dash_counts_down",
    "Verif.MaskNames.limit_exact",
    "Verif.MaskNames.short_repeats",
    "Verif.MaskNames.example_names"
   ],
   "note": "Python 2 integer syntax; Traits notification rules trusted as in C197. Defects are part of the statement."
  },
  {
   "property": "C201",
   "status": "proved",
   "theorems": [
    "Verif.Nutation.series_exact",
    "Verif.Nutation.components_epoch",
    "Verif.Nutation.order_free",
    "Verif.Nutation.components_continuous",
    "Verif.Nutation.table_amps",
    "Verif.Nutation.nutation_small",
    "Verif.Nutation.nutation_moves",
    "Verif.Nutation.packaged_moves",
    "Verif.Nutation.packaged_upright",
    "Verif.Nutation.packaged_cirs"
   ],
   "note": "exact real arithmetic; the table of the package is transcribed in full"
  },
  {
   "property": "C202",
   "status": "proved",
   "theorems": [
    "Verif.CioLocator.series_exact",
    "Verif.CioLocator.packaged_series",
    "Verif.CioLocator.packaged_small"
   ],
   "note": "exact real arithmetic; the file of the package is transcribed in full"
  },
  {
   "property": "C203",
   "status": "proved",
   "theorems": [
    "Verif.SeriesFiles.lines_that_count",
    "Verif.SeriesFiles.load_nutation_iff",
    "Verif.SeriesFiles.comments_anywhere",
    "Verif.SeriesFiles.load_cio",
    "Verif.SeriesFiles.no_polynomial"
   ],
   "note": "conversions of words to numbers are parameters"
  },
  {
   "property": "C204",
   "status": "proved",
   "theorems": [
    "Verif.Mosaic.automatic",
    "Verif.Mosaic.given_rows",
    "Verif.Mosaic.other_rows",
    "Verif.Mosaic.images_once"
   ],
   "note": "drawing left out"
  },
  {
   "property": "C205",
   "status": "proved",
   "theorems": [
    "Verif.InstallTool.session",
    "Verif.InstallTool.letters",
    "Verif.InstallTool.numbers",
    "Verif.InstallTool.no_digits",
    "Verif.InstallTool.all_tries",
    "Verif.InstallTool.all_attempts",
    "Verif.InstallTool.all_finishes",
    "Verif.InstallTool.pick_tries",
    "Verif.InstallTool.pick_from_the_end",
    "Verif.InstallTool.out_of_range",
    "Verif.InstallTool.harmless",
    "Verif.InstallTool.quits",
    "Verif.InstallTool.nothing_to_do",
    "Verif.InstallTool.sudo_argument",
    "Verif.InstallTool.platforms"
   ],
   "note": "what an installation does is a parameter (C128 models it); printing left out"
  },
  {
   "property": "C206",
   "status": "proved",
   "theorems": [
    "Verif.ScatterLasso.lasso_selects",
    "Verif.ScatterLasso.closed_once",
    "Verif.ScatterLasso.no_lasso",
    "Verif.ScatterLasso.deactivated",
    "Verif.ScatterLasso.stale_selection",
    "Verif.ScatterLasso.match_rows",
    "Verif.ScatterLasso.keys_selected",
    "Verif.ScatterLasso.remembered",
    "Verif.ScatterLasso.forgotten"
   ],
   "note": "points inside a lasso are a parameter; one canvas without other widgets; no NaN"
  },
  {
   "property": "C207",
   "status": "proved",
   "theorems": [
    "Verif.ScatterLasso.margins_in_dots",
    "Verif.ScatterLasso.spaces_in_dots",
    "Verif.ScatterLasso.not_given",
    "Verif.ScatterLasso.points_only_at_72"
   ],
   "note": "exact arithmetic"
  },
  {
   "property": "C208",
   "status": "proved",
   "theorems": [
    "Verif.DeltaVir.fails_iff",
    "Verif.DeltaVir.flat_value",
    "Verif.DeltaVir.open_value",
    "Verif.DeltaVir.bounds",
    "Verif.DeltaVir.einstein_de_sitter",
    "Verif.DeltaVir.high_redshift"
   ],
   "note": "exact real arithmetic: in floats a cosmology meant as flat can have a tiny curvature"
  },
  {
   "property": "C209",
   "status": "proved",
   "theorems": [
    "Verif.Animate.key_frames",
    "Verif.Animate.equal_steps",
    "Verif.Animate.zero_frames",
    "Verif.Animate.lengths",
    "Verif.Animate.files",
    "Verif.Animate.frame_names",
    "Verif.Animate.deleted",
    "Verif.Animate.initial_view_lost",
    "Verif.Animate.deleted_before_checks"
   ],
   "note": "exact arithmetic; drawing left out"
  },
  {
   "property": "C21",
   "status": "proved",
   "theorems": [
    "Verif.Source.one_object_per_name",
    "Verif.Source.live_sources_distinct",
    "Verif.Source.reduce_roundtrip_partial",
    "Verif.Source.unpickle_is_same_object_partial",
    "Verif.Source.strip_spec",
    "Verif.Source.blanks_ignored",
    "Verif.Source.bare_lookup_keeps_codes",
    "Verif.Source.lookup_sets_code",
    "Verif.Source.collect_removes_only",
    "Verif.Source.reduce_slash_fails",
    "Verif.Source.reduce_doi_fails",
    "Verif.Source.dependent_name_clash"
   ],
   "note": "exact for every history; failures included"
  },
  {
   "property": "C210",
   "status": "proved",
   "theorems": [
    "Verif.Animate.movie_finds_frames",
    "Verif.Animate.movie_limits"
   ],
   "note": "ffmpeg is a return code"
  },
  {
   "property": "C211",
   "status": "proved",
   "theorems": [
    "Verif.ConfigLife.options_count",
    "Verif.ConfigLife.off_iff",
    "Verif.ConfigLife.created_spec",
    "Verif.ConfigLife.default_missing",
    "Verif.ConfigLife.default_keyword_loses",
    "Verif.ConfigLife.unknown_option",
    "Verif.ConfigLife.reload_is_new",
    "Verif.ConfigLife.reload_without_file",
    "Verif.ConfigLife.reload_forgets",
    "Verif.ConfigLife.reload_lost",
    "Verif.ConfigLife.reload_missing",
    "Verif.ConfigLife.reload_twice",
    "Verif.ConfigLife.indent_stays",
    "Verif.ConfigLife.reset_spec"
   ],
   "note": "the parser and configspecs are parameters; the cached interpolation engine is left out"
  },
  {
   "property": "C212",
   "status": "proved",
   "theorems": [
    "Verif.IpythonSetup.with_default",
    "Verif.IpythonSetup.without_default",
    "Verif.IpythonSetup.default_toolkit",
    "Verif.IpythonSetup.filled",
    "Verif.IpythonSetup.asked_again",
    "Verif.IpythonSetup.untouched",
    "Verif.IpythonSetup.version_010",
    "Verif.IpythonSetup.too_old",
    "Verif.IpythonSetup.dialogue"
   ],
   "note": "modules, version and files are parameters; printing left out"
  },
  {
   "property": "C213",
   "status": "proved",
   "theorems": [
    "Verif.DoneTargets.section_read",
    "Verif.DoneTargets.nothing_selected",
    "Verif.DoneTargets.put_into_group_0",
    "Verif.DoneTargets.zero_is_last",
    "Verif.DoneTargets.by_position"
   ],
   "note": "lines are their words; int and the matching by position are parameters"
  },
  {
   "property": "C214",
   "status": "proved",
   "theorems": [
    "Verif.PlotHelpers.no_errors",
    "Verif.PlotHelpers.point",
    "Verif.PlotHelpers.positive",
    "Verif.PlotHelpers.zero_without_error",
    "Verif.PlotHelpers.each_point",
    "Verif.PlotHelpers.one_error",
    "Verif.PlotHelpers.exchanged"
   ],
   "note": "exact arithmetic"
  },
  {
   "property": "C215",
   "status": "proved",
   "theorems": [
    "Verif.PlotHelpers.context_restores"
   ],
   "note": "calls of pyplot are a list"
  },
  {
   "property": "C216",
   "status": "proved",
   "theorems": [
    "Verif.PlotHelpers.major_ticks",
    "Verif.PlotHelpers.minor_ticks"
   ],
   "note": "exact arithmetic; labels left out"
  },
  {
   "property": "C217",
   "status": "proved",
   "theorems": [
    "Verif.EyeColor.color_eq",
    "Verif.EyeColor.in_range",
    "Verif.EyeColor.brightness",
    "Verif.EyeColor.white",
    "Verif.EyeColor.not_three"
   ],
   "note": "the flux in a band is a parameter; exact arithmetic"
  },
  {
   "property": "C218",
   "status": "proved",
   "theorems": [
    "Verif.ScatterDensity.grid",
    "Verif.ScatterDensity.counted_once",
    "Verif.ScatterDensity.shown_iff",
    "Verif.ScatterDensity.extreme_never",
    "Verif.ScatterDensity.drawn",
    "Verif.ScatterDensity.limits",
    "Verif.ScatterDensity.no_limits",
    "Verif.ScatterDensity.default_threshold",
    "Verif.ScatterDensity.sparse_shows_nothing"
   ],
   "note": "exact arithmetic; numpy's histogram2d modelled as documented; size/6 truncated"
  },
  {
   "property": "C219",
   "status": "proved",
   "theorems": [
    "Verif.RotZoom.frames_saved",
    "Verif.RotZoom.nothing_saved",
    "Verif.RotZoom.restored",
    "Verif.RotZoom.relative_move",
    "Verif.RotZoom.absolute_moves"
   ],
   "note": "the Mayavi scene is a parameter"
  },
  {
   "property": "C22",
   "status": "proved",
   "theorems": [
    "Verif.SymMap.symmetric_throughout_iff",
    "Verif.SymMap.symmetric_step_iff",
    "Verif.SymMap.del_exact",
    "Verif.SymMap.symmetric_on_domain",
    "Verif.SymMap.set_effect",
    "Verif.SymMap.del_effect",
    "Verif.SymMap.reassign_leaves_stale_back",
    "Verif.SymMap.none_key_duplicates"
   ],
   "note": "exact for every history"
  },
  {
   "property": "C220",
   "status": "proved",
   "theorems": [
    "Verif.RotZoom.accepted",
    "Verif.RotZoom.moves",
    "Verif.RotZoom.names",
    "Verif.RotZoom.names_tight",
    "Verif.RotZoom.named_iff",
    "Verif.RotZoom.delay_near"
   ],
   "note": "exact logarithm and rounding"
  },
  {
   "property": "C221",
   "status": "proved",
   "theorems": [
    "Verif.ImageRange.leaves_out",
    "Verif.ImageRange.all_ignored",
    "Verif.ImageRange.ignored_spec",
    "Verif.ImageRange.ignoring_spec",
    "Verif.ImageRange.sigma_spec",
    "Verif.ImageRange.invert_complement",
    "Verif.ImageRange.global_cached"
   ],
   "note": "codes are taken as parsed; exact arithmetic"
  },
  {
   "property": "C222",
   "status": "proved",
   "theorems": [
    "Verif.PyfitsLink.address",
    "Verif.PyfitsLink.no_address"
   ],
   "note": "the page is the stream of parser events"
  },
  {
   "property": "C223",
   "status": "proved",
   "theorems": [
    "Verif.VersionStr.devstr_spec",
    "Verif.VersionStr.devstr_prefix",
    "Verif.VersionStr.version_injective",
    "Verif.VersionStr.version_form"
   ],
   "note": "git is a parameter; the bzr and hg variants are not modelled (not used)"
  },
  {
   "property": "C224",
   "status": "proved",
   "theorems": [
    "Verif.InsertInto.never_into_catalog",
    "Verif.InsertInto.field_parent",
    "Verif.InsertInto.with_link",
    "Verif.InsertInto.half_way"
   ],
   "note": "Sequence.index of a field node is a parameter"
  },
  {
   "property": "C225",
   "status": "proved",
   "theorems": [
    "Verif.YearPlot.transit_drawn",
    "Verif.YearPlot.upper_end",
    "Verif.YearPlot.lower_end",
    "Verif.YearPlot.each_day"
   ],
   "note": "riseSetTransit's results are the input; exact arithmetic"
  },
  {
   "property": "C226",
   "status": "proved",
   "theorems": [
    "Verif.YearPlot.both_or_neither",
    "Verif.YearPlot.one_kind"
   ],
   "note": "exact arithmetic; the Python 2 order of None and numbers"
  },
  {
   "property": "C227",
   "status": "proved",
   "theorems": [
    "Verif.FitContinuum.not_interactive",
    "Verif.FitContinuum.interactive",
    "Verif.FitContinuum.evaluated_stuck",
    "Verif.FitContinuum.history_forgotten",
    "Verif.FitContinuum.refits"
   ],
   "note": "models, fits and the window are parameters"
  },
  {
   "property": "C228",
   "status": "proved",
   "theorems": [
    "Verif.SpecPlot.drawn",
    "Verif.SpecPlot.few",
    "Verif.SpecPlot.errors_spec",
    "Verif.SpecPlot.true_rescales",
    "Verif.SpecPlot.valid_iff",
    "Verif.SpecPlot.continuum_spec"
   ],
   "note": "exact arithmetic, finite errors, no smoothing"
  },
  {
   "property": "C229",
   "status": "proved",
   "theorems": [
    "Verif.SpylotDraw.lines_drawn",
    "Verif.SpylotDraw.no_lines",
    "Verif.SpylotDraw.histogram",
    "Verif.SpylotDraw.pixel_inside"
   ],
   "note": "exact arithmetic; numpy's repeat, tile, sort and convolve as documented"
  },
  {
   "property": "C23",
   "status": "proved",
   "theorems": [
    "Verif.CheckType.checkType_exact",
    "Verif.CheckType.accepted_agree_iff",
    "Verif.CheckType.old_class_right_iff",
    "Verif.CheckType.checkType_iff",
    "Verif.CheckType.old_class_accepts"
   ],
   "note": "every argument"
  },
  {
   "property": "C230",
   "status": "proved",
   "theorems": [
    "Verif.SpylotWidgets.hung_in",
    "Verif.SpylotWidgets.mode_tools",
    "Verif.SpylotWidgets.labels_current",
    "Verif.SpylotWidgets.stale_labels"
   ],
   "note": "the Traits library's notifications are trusted; heights of labels are not modelled"
  },
  {
   "property": "C231",
   "status": "proved",
   "theorems": [
    "Verif.SpylotDraw.range_selection",
    "Verif.SpylotDraw.click_count",
    "Verif.SpylotDraw.base_line"
   ],
   "note": "exact arithmetic; events as delivered by enable"
  },
  {
   "property": "C232",
   "status": "proved",
   "theorems": [
    "Verif.BandGroup.names_sorted",
    "Verif.BandGroup.look_spec",
    "Verif.BandGroup.colours",
    "Verif.BandGroup.all_drawn",
    "Verif.BandGroup.duplicates",
    "Verif.BandGroup.units_restored",
    "Verif.BandGroup.special"
   ],
   "note": "exact arithmetic; drawing itself is not modelled"
  },
  {
   "property": "C233",
   "status": "proved",
   "theorems": [
    "Verif.FluxRatio.residual",
    "Verif.FluxRatio.ratio_restored",
    "Verif.FluxRatio.tolerance",
    "Verif.FluxRatio.at_wavelength",
    "Verif.FluxRatio.no_wavelength",
    "Verif.FluxRatio.no_information",
    "Verif.FluxRatio.fails",
    "Verif.FluxRatio.balmer_positive"
   ],
   "note": "exact real arithmetic; scipy's fmin enters as a hypothesis (finds a least value, or comes within d of it)"
  },
  {
   "property": "C234",
   "status": "proved",
   "theorems": [
    "Verif.FullSed.mk_pixels",
    "Verif.FullSed.full_exact",
    "Verif.FullSed.several_values",
    "Verif.FullSed.point_place",
    "Verif.FullSed.single_spectrum"
   ],
   "note": "exact arithmetic; the conversion of units is not modelled"
  },
  {
   "property": "C235",
   "status": "proved",
   "theorems": [
    "Verif.Scatter4d.drawn",
    "Verif.Scatter4d.constant",
    "Verif.Scatter4d.lengths"
   ],
   "note": "exact real arithmetic; plots without any point are excluded"
  },
  {
   "property": "C236",
   "status": "proved",
   "theorems": [
    "Verif.Camera.focal",
    "Verif.Camera.moves_exact",
    "Verif.Camera.lost",
    "Verif.Camera.refused",
    "Verif.Camera.never_toggles"
   ],
   "note": "exact real arithmetic; Mayavi's scene is what is set in it"
  },
  {
   "property": "C237",
   "status": "proved",
   "theorems": [
    "Verif.NightPlot.table_never",
    "Verif.NightPlot.plot_never"
   ],
   "note": "the list of the package's modules is part of the model"
  },
  {
   "property": "C238",
   "status": "proved",
   "theorems": [
    "Verif.SpylotLists.find_spec",
    "Verif.SpylotLists.find_fails",
    "Verif.SpylotLists.select_exact",
    "Verif.SpylotLists.shadowed",
    "Verif.SpylotLists.set_without_effect",
    "Verif.SpylotLists.default_lists",
    "Verif.SpylotLists.names_exact"
   ],
   "note": "places of lines are compared by their text"
  },
  {
   "property": "C239",
   "status": "proved",
   "theorems": [
    "Verif.SpylotLists.highlights",
    "Verif.SpylotLists.marked",
    "Verif.SpylotLists.delete_exact",
    "Verif.SpylotLists.clear_exact",
    "Verif.SpylotLists.edit_exact",
    "Verif.SpylotLists.typed_exact",
    "Verif.SpylotLists.recalc_stale"
   ],
   "note": "Traits notifications are trusted; a change of the selection by the table widget itself is a step of the user"
  },
  {
   "property": "C24",
   "status": "proved",
   "theorems": [
    "Verif.Angle.value_in_range",
    "Verif.Angle.range_good",
    "Verif.Angle.rejected_unchanged",
    "Verif.Angle.wrap_congruent",
    "Verif.Angle.triangle_congruent",
    "Verif.Angle.assigned_in_range_kept",
    "Verif.Angle.strict_accepts_iff",
    "Verif.Angle.units_agree",
    "Verif.Angle.construct_degrees",
    "Verif.Angle.negative_dms_escapes",
    "Verif.Angle.zero_width_escapes",
    "Verif.Angle.negative_dms_rejected"
   ],
   "note": "exact real arithmetic; failures included (see DESIGN, defects)"
  },
  {
   "property": "C240",
   "status": "proved",
   "theorems": [
    "Verif.DistSync.depth",
    "Verif.DistSync.history",
    "Verif.DistSync.plain",
    "Verif.DistSync.plain_history",
    "Verif.DistSync.opens",
    "Verif.DistSync.opens_sync",
    "Verif.DistSync.one_change",
    "Verif.DistSync.swallowed",
    "Verif.DistSync.replaced",
    "Verif.DistSync.setDist_down",
    "Verif.DistSync.setDm_down",
    "Verif.DistSync.up",
    "Verif.DistSync.same"
   ],
   "note": "conversions are parameters; exact real arithmetic; Traits' change notification is modelled as a call on every change of value"
  },
  {
   "property": "C241",
   "status": "proved",
   "theorems": [
    "Verif.DistSync.band_spec",
    "Verif.DistSync.band_stays",
    "Verif.DistSync.band_direct"
   ],
   "note": "recursion limit as a parameter"
  },
  {
   "property": "C242",
   "status": "proved",
   "theorems": [
    "Verif.GuideStars.history",
    "Verif.GuideStars.masks",
    "Verif.GuideStars.repaired",
    "Verif.GuideStars.all_shown",
    "Verif.GuideStars.step_shown"
   ],
   "note": "bands exist; the analyzer's distance handling (C240) left out"
  },
  {
   "property": "C243",
   "status": "proved",
   "theorems": [
    "Verif.GuideStars.cleared",
    "Verif.GuideStars.stale",
    "Verif.GuideStars.targets"
   ],
   "note": ""
  },
  {
   "property": "C244",
   "status": "proved",
   "theorems": [
    "Verif.OffsetDialog.opens",
    "Verif.OffsetDialog.roundtrip",
    "Verif.OffsetDialog.cancel",
    "Verif.OffsetDialog.applied",
    "Verif.OffsetDialog.recip_spec",
    "Verif.OffsetDialog.recip_recip"
   ],
   "note": "exact division; weights and scales of zero (infinities in numpy) only as Lean's 1/0 = 0"
  },
  {
   "property": "C245",
   "status": "proved",
   "theorems": [
    "Verif.SkySep.distance",
    "Verif.SkySep.symm",
    "Verif.SkySep.bounds"
   ],
   "note": "exact real arithmetic"
  },
  {
   "property": "C246",
   "status": "proved",
   "theorems": [
    "Verif.SpecFlux.texts",
    "Verif.SpecFlux.fails",
    "Verif.SpecFlux.only_texts",
    "Verif.SpecFlux.each_ok",
    "Verif.SpecFlux.each_error"
   ],
   "note": "registry and single-band functions as parameters"
  },
  {
   "property": "C247",
   "status": "proved",
   "theorems": [
    "Verif.FileBand.never_fits",
    "Verif.FileBand.types",
    "Verif.FileBand.text_spec",
    "Verif.FileBand.ext_spec"
   ],
   "note": "numpy.loadtxt and pyfits as parameters"
  },
  {
   "property": "C248",
   "status": "proved",
   "theorems": [
    "Verif.DocSig.arguments",
    "Verif.DocSig.works",
    "Verif.DocSig.right",
    "Verif.DocSig.wrong",
    "Verif.DocSig.all"
   ],
   "note": "getargspec and str as parameters"
  },
  {
   "property": "C249",
   "status": "proved",
   "theorems": [
    "Verif.TodoMod.complete",
    "Verif.TodoMod.distinct",
    "Verif.TodoMod.lines",
    "Verif.TodoMod.no_gettext",
    "Verif.TodoMod.not_found",
    "Verif.TodoMod.text_colon",
    "Verif.TodoMod.text_plain",
    "Verif.TodoMod.strip_ends"
   ],
   "note": "sphinx as parameters"
  },
  {
   "property": "C25",
   "status": "proved",
   "theorems": [
    "Verif.Angle.hms_set_get_iff",
    "Verif.Angle.dms_set_get",
    "Verif.Angle.dms_get_set_iff",
    "Verif.Angle.dms_get_set",
    "Verif.Angle.half_degree_sign_lost",
    "Verif.Angle.getDms_bounds",
    "Verif.Angle.hms_get_set",
    "Verif.Angle.hms_set_get",
    "Verif.Angle.negative_hours_not_inverse"
   ],
   "note": "exact real arithmetic; all four round trips characterised"
  },
  {
   "property": "C26",
   "status": "proved",
   "theorems": [
    "Verif.Angle.dmsStr_fields",
    "Verif.Angle.dmsStr_value",
    "Verif.Angle.dmsStr_carry_wrong",
    "Verif.Angle.dmsStr_carry_example",
    "Verif.Angle.hmsStr_nonneg",
    "Verif.Angle.hmsStr_negative_shows_sixty"
   ],
   "note": "exact real arithmetic; failures included (see DESIGN, defects)"
  },
  {
   "property": "C27",
   "status": "proved",
   "theorems": [
    "Verif.LatLong.setLat_spec",
    "Verif.LatLong.setLat_id",
    "Verif.LatLong.setLong_spec",
    "Verif.LatLong.latitude_always_in_range",
    "Verif.LatLong.construct_dir"
   ],
   "note": "real arithmetic"
  },
  {
   "property": "C28",
   "status": "proved",
   "theorems": [
    "Verif.Transform.convert_spec",
    "Verif.Transform.convert_class",
    "Verif.Transform.convert_own_class_latlong",
    "Verif.Transform.convert_own_class_fails",
    "Verif.Transform.shortestPath_exists",
    "Verif.Transform.chain_example"
   ],
   "note": "networkx by contract (a path with the fewest edges)"
  },
  {
   "property": "C29",
   "status": "proved",
   "theorems": [
    "Verif.Transform.registry_exact",
    "Verif.Transform.graph_not_stale",
    "Verif.Transform.register_accepted_iff",
    "Verif.Transform.register_occupied",
    "Verif.Transform.redefinition_merges",
    "Verif.Transform.redefinition_example"
   ],
   "note": "exact; failures included (see DESIGN, defects)"
  },
  {
   "property": "C30",
   "status": "proved",
   "theorems": [
    "Verif.Calendar.date_roundtrip_julian",
    "Verif.Calendar.date_roundtrip_gregorian",
    "Verif.Calendar.date_roundtrip_gregorian_iff",
    "Verif.Calendar.early_gregorian_wrong",
    "Verif.Calendar.jdn_roundtrip_julian",
    "Verif.Calendar.jdn_roundtrip_gregorian"
   ],
   "note": "Julian calendar complete; Gregorian exactly characterised"
  },
  {
   "property": "C31",
   "status": "proved",
   "theorems": [
    "Verif.Calendar.dayAfter_succ",
    "Verif.Calendar.counts_days",
    "Verif.Calendar.lt_of_before",
    "Verif.Calendar.before_iff_lt",
    "Verif.Calendar.dateToJdn_inj",
    "Verif.Calendar.reached"
   ],
   "note": "from year -4715"
  },
  {
   "property": "C32",
   "status": "proved",
   "theorems": [
    "Verif.Calendar.auto_from_jd",
    "Verif.Calendar.auto_to_jd",
    "Verif.Calendar.auto_to_jd_iff",
    "Verif.Calendar.auto_to_jd_wrong"
   ],
   "note": "both directions exactly characterised"
  },
  {
   "property": "C33",
   "status": "proved",
   "theorems": [
    "Verif.TimeScale.epoch_roundtrip",
    "Verif.TimeScale.jd_roundtrip",
    "Verif.TimeScale.epoch_strictMono",
    "Verif.TimeScale.epoch_string_roundtrip",
    "Verif.TimeScale.epoch_anchors",
    "Verif.TimeScale.epoch_strings_mjd_ignored",
    "Verif.TimeScale.epoch_strings"
   ],
   "note": "exact arithmetic"
  },
  {
   "property": "C34",
   "status": "proved",
   "theorems": [
    "Verif.TimeScale.deltaAT_correct",
    "Verif.TimeScale.deltaAT_change_month_wrong",
    "Verif.TimeScale.deltaAT_mono",
    "Verif.TimeScale.deltaTT_wrong",
    "Verif.TimeScale.deltaAT_drift_double",
    "Verif.TimeScale.deltaAT_leap",
    "Verif.TimeScale.leap_seconds_table",
    "Verif.TimeScale.noon_shown",
    "Verif.TimeScale.deltaAT_2009"
   ],
   "note": "exact in every month of the table; the entry used before 1972 and the doubled fraction are theorems"
  },
  {
   "property": "C35",
   "status": "proved",
   "theorems": [
    "Verif.FixedColumn.columns_never_overlap",
    "Verif.FixedColumn.add_rejected_iff",
    "Verif.FixedColumn.field_text",
    "Verif.FixedColumn.fields_disjoint",
    "Verif.FixedColumn.parse_rows_spec",
    "Verif.FixedColumn.parse_file_spec",
    "Verif.FixedColumn.del_spec",
    "Verif.FixedColumn.parse_shape",
    "Verif.FixedColumn.column_zero_wrong",
    "Verif.FixedColumn.newline_included"
   ],
   "note": "exact; failures included (see DESIGN, defects)"
  },
  {
   "property": "C36",
   "status": "proved",
   "theorems": [
    "Verif.Tipsy.load_correct",
    "Verif.Tipsy.dark_right_iff",
    "Verif.Tipsy.dark_views_on_domain",
    "Verif.Tipsy.dark_lost",
    "Verif.Tipsy.warned_iff"
   ],
   "note": "every snapshot; the dark views are characterised exactly"
  },
  {
   "property": "C37",
   "status": "proved",
   "theorems": [
    "Verif.GetData.downloaded_once",
    "Verif.GetData.refresh_current",
    "Verif.GetData.own_data",
    "Verif.GetData.own_data_whole",
    "Verif.GetData.crash_first_download_safe",
    "Verif.GetData.stored_under_name",
    "Verif.GetData.readRemote_eq",
    "Verif.GetData.other_urls_data",
    "Verif.GetData.crash_in_refresh_truncates",
    "Verif.GetData.localfn_ignored_when_cached",
    "Verif.GetData.no_file_name_always_fails",
    "Verif.GetData.empty_file_fails"
   ],
   "note": "exact; failures included (see DESIGN, defects)"
  },
  {
   "property": "C38",
   "status": "proved",
   "theorems": [
    "Verif.TeX.roundtrip",
    "Verif.TeX.parse_tame",
    "Verif.TeX.text_to_lines",
    "Verif.TeX.declaration_content",
    "Verif.TeX.tameB_sound",
    "Verif.TeX.sampleDecl_tame",
    "Verif.TeX.declaration_found",
    "Verif.TeX.declaration_condition_needed",
    "Verif.TeX.left_condition_needed",
    "Verif.TeX.end_name_duplicated",
    "Verif.TeX.right_command_raises",
    "Verif.TeX.roundtrip_plain",
    "Verif.TeX.parse_plain",
    "Verif.TeX.text_single_line",
    "Verif.TeX.plainB_sound",
    "Verif.TeX.sample_plain",
    "Verif.TeX.nested_declaration_duplicated",
    "Verif.TeX.unbalanced_declaration_loses_text",
    "Verif.TeX.open_declaration_closed",
    "Verif.TeX.dollars_changed",
    "Verif.TeX.optional_argument_scrambled",
    "Verif.TeX.mixed_argument_raises",
    "Verif.TeX.left_command_raises",
    "Verif.TeX.right_bracket_loses_text",
    "Verif.TeX.simple_declaration"
   ],
   "note": "the whole of text_to_nodes with its regular expressions is modelled; proved for every text without the shapes listed in the statement; for each of those shapes a theorem exhibits a text that is changed or refused"
  },
  {
   "property": "C39",
   "status": "proved",
   "theorems": [
    "Verif.TeXTree.prune_removes_subtree",
    "Verif.TeXTree.prune_root",
    "Verif.TeXTree.prune_declaration_command_raises",
    "Verif.TeXTree.prune_comment_newline_raises",
    "Verif.TeXTree.pruned_not_printable"
   ],
   "note": "exact; failures included (see DESIGN, defects)"
  },
  {
   "property": "C40",
   "status": "proved",
   "theorems": [
    "Verif.Alg.crossmask_spec",
    "Verif.Alg.crossmask_neg"
   ],
   "note": "nonempty arrays; the empty array raises"
  },
  {
   "property": "C41",
   "status": "proved",
   "theorems": [
    "Verif.Alg.nearestsorted_spec",
    "Verif.Alg.nearestsorted_empty"
   ],
   "note": "exact arithmetic over any ordered field"
  },
  {
   "property": "C42",
   "status": "proved",
   "theorems": [
    "Verif.Rotation.vec_axis_exact",
    "Verif.Rotation.vec_axis_compose_iff",
    "Verif.Rotation.turn_quarter",
    "Verif.Rotation.turn_add",
    "Verif.Rotation.turn_inj",
    "Verif.Rotation.realTurn_of_mem",
    "Verif.Rotation.realTurn_neg",
    "Verif.Rotation.realTurn_double",
    "Verif.Rotation.rotationMatrix_isRotation",
    "Verif.Rotation.named_axis_compose",
    "Verif.Rotation.named_axis_sense",
    "Verif.Rotation.degrees_turn",
    "Verif.Rotation.vec_axis_compose",
    "Verif.Rotation.vec_axis_negative",
    "Verif.Rotation.vec_axis_back_and_forth",
    "Verif.Rotation.vec_axis_full_turn",
    "Verif.Rotation.vec_axis_opposite_sense"
   ],
   "note": "exact real arithmetic; every angle and axis"
  },
  {
   "property": "C43",
   "status": "proved",
   "theorems": [
    "Verif.Alg.pass_spec",
    "Verif.Alg.sigmaClip_result",
    "Verif.Alg.converged_count_partial",
    "Verif.Alg.converges_of_neverReadmits",
    "Verif.Alg.fixed_centre_neverReadmits",
    "Verif.Alg.fixed_centre_converges",
    "Verif.Alg.default_clip_not_converged",
    "Verif.Alg.clip_may_not_end"
   ],
   "note": "exact; failures included"
  },
  {
   "property": "C44",
   "status": "proved",
   "theorems": [
    "Verif.Pipeline.processSingle_limit_exact",
    "Verif.Pipeline.processSingle_gives_up_lost",
    "Verif.Pipeline.processSingle_limit_one",
    "Verif.Pipeline.processSingle_removefailed_leaves_datum",
    "Verif.Pipeline.processSingle_keepfailed_duplicates_datum"
   ],
   "note": "exact for any stage and limit"
  },
  {
   "property": "C45",
   "status": "proved",
   "theorems": [
    "Verif.Catalog.mergeNode_moves",
    "Verif.Catalog.mergeNode_partial_failure"
   ],
   "note": "when no moved child is an ancestor of the receiver; otherwise the move stops half-way (mergeNode_partial_failure)"
  },
  {
   "property": "C46",
   "status": "proved",
   "theorems": [
    "Verif.Catalog.removeChild_exact",
    "Verif.Catalog.removeChild_own",
    "Verif.Catalog.removeChild_wrong_node",
    "Verif.Catalog.removeChild_field_raises"
   ],
   "note": "every reachable state and comparison of nodes"
  },
  {
   "property": "C47",
   "status": "proved",
   "theorems": [
    "Verif.Catalog.idstr_eq_iff",
    "Verif.Catalog.idstr_siblings",
    "Verif.Catalog.idstr_describes",
    "Verif.Catalog.idstr_not_unique"
   ],
   "note": "every reachable state"
  },
  {
   "property": "C48",
   "status": "proved",
   "theorems": [
    "Verif.Field.well_typed_step_iff",
    "Verif.Field.field_well_typed",
    "Verif.Field.field_well_typed_on_domain",
    "Verif.Field.setCurrObj_skips_type_check"
   ],
   "note": "exact condition per call, hence all histories"
  },
  {
   "property": "C49",
   "status": "proved",
   "theorems": [
    "Verif.Field.change_told_iff",
    "Verif.Field.unsafe_notes",
    "Verif.Field.current_change_notifies",
    "Verif.Field.negative_index_not_notified",
    "Verif.Field.first_value_not_notified",
    "Verif.Field.insert_notifies_swapped"
   ],
   "note": "every call on every field"
  },
  {
   "property": "C50",
   "status": "proved",
   "theorems": [
    "Verif.Angle.sub_value",
    "Verif.Angle.add_sub_cancel'",
    "Verif.Angle.sepOfAngles_wrong",
    "Verif.Angle.sepOfAngles_right_iff"
   ],
   "note": "exact real arithmetic; the two-angle constructor characterised exactly"
  },
  {
   "property": "C51",
   "status": "proved",
   "theorems": [
    "Verif.LatLong.separation_eq_angle",
    "Verif.LatLong.separation_metric",
    "Verif.LatLong.separation_meridian"
   ],
   "note": "real arithmetic"
  },
  {
   "property": "C52",
   "status": "proved",
   "theorems": [
    "Verif.LatLong.matrixRotate_dir",
    "Verif.LatLong.matrixRotate_comp",
    "Verif.LatLong.matrixRotate_inverse",
    "Verif.LatLong.matrixRotate_separation"
   ],
   "note": "without error propagation; real arithmetic"
  },
  {
   "property": "C53",
   "status": "proved",
   "theorems": [
    "Verif.LatLong.setLength_spec",
    "Verif.LatLong.setLength_zero",
    "Verif.LatLong.rect_add_sub"
   ],
   "note": ""
  },
  {
   "property": "C54",
   "status": "proved",
   "theorems": [
    "Verif.Alg.ndGrid_spec"
   ],
   "note": ""
  },
  {
   "property": "C55",
   "status": "proved",
   "theorems": [
    "Verif.Rotation.angleAxis_iff",
    "Verif.Rotation.angleAxis_recovers",
    "Verif.Rotation.angleAxis_negative_fails"
   ],
   "note": "exact real arithmetic"
  },
  {
   "property": "C56",
   "status": "proved",
   "theorems": [
    "Verif.Rotation.intrinsicToObserved_bounds",
    "Verif.Rotation.ellipticity_inverse_iff",
    "Verif.Rotation.ellipticity_counterexample"
   ],
   "note": "exact real arithmetic"
  },
  {
   "property": "C57",
   "status": "proved",
   "theorems": [
    "Verif.Calendar.time_roundtrip_exact_norounding",
    "Verif.Calendar.time_roundtrip_exact_fine",
    "Verif.Calendar.time_default_exact_late",
    "Verif.Calendar.time_roundtrip_double",
    "Verif.Calendar.time_default_double_iff",
    "Verif.Calendar.two_o_clock_late",
    "Verif.Calendar.micro_ignored",
    "Verif.Calendar.micro_lost",
    "Verif.Calendar.rounding_rejected_iff",
    "Verif.Calendar.noon_is_jdn",
    "Verif.Calendar.zone_spec"
   ],
   "note": "exact and double arithmetic"
  },
  {
   "property": "C58",
   "status": "proved",
   "theorems": [
    "Verif.Transform.optimized_right_iff",
    "Verif.Transform.optimized_correct",
    "Verif.Transform.optimized_repeats_matrix"
   ],
   "note": "exact condition on the path"
  },
  {
   "property": "C59",
   "status": "proved",
   "theorems": [
    "Verif.Transform.stack_exact",
    "Verif.Transform.stack_right_iff",
    "Verif.Transform.one_decorator",
    "Verif.Transform.stacked_decorators_lost"
   ],
   "note": "any number of decorators"
  },
  {
   "property": "C60",
   "status": "proved",
   "theorems": [
    "Verif.Pickle.roundtrip_all",
    "Verif.Pickle.roundtrip_n",
    "Verif.Pickle.roundtrip_first",
    "Verif.Pickle.failed_append_keeps",
    "Verif.Pickle.failed_overwrite_loses",
    "Verif.Pickle.append_after_torn_unreadable",
    "Verif.Pickle.negative_number_is_list"
   ],
   "note": "exact; failures included (see DESIGN, defects)"
  },
  {
   "property": "C61",
   "status": "proved",
   "theorems": [
    "Verif.TeXTree.visit_all"
   ],
   "note": "all trees; the function is pure (it does not edit the tree)"
  },
  {
   "property": "C62",
   "status": "proved",
   "theorems": [
    "Verif.TeXFile.file_roundtrip",
    "Verif.TeXFile.sample_loadable",
    "Verif.TeXFile.parse_restored",
    "Verif.TeXFile.comment_in_argument_lost",
    "Verif.TeXFile.no_preamble_gains_newline",
    "Verif.TeXFile.no_document_refused",
    "Verif.TeXFile.every_text",
    "Verif.TeXFile.name_found",
    "Verif.TeXFile.name_terminates",
    "Verif.TeXFile.comment_in_argument_text",
    "Verif.TeXFile.comment_after_brace_lost",
    "Verif.TeXFile.blank_options_dropped",
    "Verif.TeXFile.class_reordered",
    "Verif.TeXFile.comment_in_options_refused",
    "Verif.TeXFile.leading_newline",
    "Verif.TeXFile.other_name"
   ],
   "note": "Proved for every file whose comments are outside of arguments and not directly after an opening brace, whose environment names end on their line and whose two parts are texts C38 keeps (declarations in braces included). False otherwise, with proofs: a comment inside an argument or after a brace is replaced by an undefined command, blank class options are dropped, arguments reordered, a file without preamble gains a new line, a comment among the options makes the file unreadable. flatteninputs is not modelled"
  },
  {
   "property": "C63",
   "status": "proved",
   "theorems": [
    "Verif.Pipeline.processToStage_runs"
   ],
   "note": "for elements that complete at the first attempt, any queued data, every stage"
  },
  {
   "property": "C64",
   "status": "proved",
   "theorems": [
    "Verif.Pipeline.clear_empties_all",
    "Verif.Pipeline.clear_one",
    "Verif.Pipeline.clear_keeps_attempts"
   ],
   "note": "clear() and clear(k); attempt counters are kept, as proved"
  },
  {
   "property": "C65",
   "status": "proved",
   "theorems": [
    "Verif.Field.owned_derived_rejected",
    "Verif.Field.derived_values_owned",
    "Verif.Field.derivedN_lookup"
   ],
   "note": "all histories of the modelled field calls"
  },
  {
   "property": "C66",
   "status": "proved",
   "theorems": [
    "Verif.Derived.forgiving_read_succeeds",
    "Verif.Derived.read_caches",
    "Verif.Derived.ignored_failure_is_kept"
   ],
   "note": "exact; failures included (see DESIGN, defects)"
  },
  {
   "property": "C67",
   "status": "proved",
   "theorems": [
    "Verif.Spectrum.unit_accepted_iff",
    "Verif.Spectrum.unit_string_readable",
    "Verif.Spectrum.xftrans_energy",
    "Verif.Spectrum.xftrans_light",
    "Verif.Spectrum.unit_changes_keep_light",
    "Verif.Spectrum.light_determines",
    "Verif.Spectrum.unit_roundtrip",
    "Verif.Spectrum.unit_path_independent",
    "Verif.Spectrum.setUnit_effect",
    "Verif.Spectrum.setUnit_unknown",
    "Verif.Spectrum.unit_change_reverses"
   ],
   "note": "exact arithmetic over any ordered field; ASCII strings"
  },
  {
   "property": "C68",
   "status": "proved",
   "theorems": [
    "Verif.Spectrum.getUnitFlux_pure",
    "Verif.Spectrum.getUnitFlux_stuck",
    "Verif.Spectrum.getUnitFlux_loses_model",
    "Verif.Spectrum.nflux_changes_unit",
    "Verif.Spectrum.nflux_value"
   ],
   "note": "exact real arithmetic; failures included (see DESIGN, defects)"
  },
  {
   "property": "C69",
   "status": "proved",
   "theorems": [
    "Verif.Spectrum.subtract_revert",
    "Verif.Spectrum.normalize_revert",
    "Verif.Spectrum.pending_excludes",
    "Verif.Spectrum.history_keeps_light",
    "Verif.Spectrum.history_roundtrip",
    "Verif.Spectrum.refit_before_revert"
   ],
   "note": "histories of unit changes, reads, continuum operations, error and redshift assignments; refit_before_revert shows where it ends"
  },
  {
   "property": "C70",
   "status": "proved",
   "theorems": [
    "Verif.Spectrum.shapes_kept",
    "Verif.Spectrum.x0_roundtrip",
    "Verif.Spectrum.construct_spec",
    "Verif.Spectrum.construct_both",
    "Verif.Spectrum.construct_ivar"
   ],
   "note": "one-dimensional arrays, no broadcasting of length-one arrays"
  },
  {
   "property": "C71",
   "status": "proved",
   "theorems": [
    "Verif.Spectrum.fspec_setX",
    "Verif.Spectrum.fspec_two_changes_wrong"
   ],
   "note": "exact real arithmetic; failures included (see DESIGN, defects)"
  },
  {
   "property": "C72",
   "status": "proved",
   "theorems": [
    "Verif.LineList.remove_groups",
    "Verif.LineList.sortBy_perm",
    "Verif.LineList.sortBy_sorted",
    "Verif.LineList.raise_iff",
    "Verif.LineList.warn_keeps_all",
    "Verif.LineList.remove_exact",
    "Verif.LineList.remove_keeps_last",
    "Verif.LineList.remove_with_tolerance_loses",
    "Verif.LineList.bad_ondup"
   ],
   "note": "exact; the reading of files is not modelled and not in the statement"
  },
  {
   "property": "C73",
   "status": "proved",
   "theorems": [
    "Verif.Alg.median_spec",
    "Verif.Alg.background_affine",
    "Verif.Alg.background_flat",
    "Verif.Alg.background_methods"
   ],
   "note": "exact arithmetic over any ordered field; np.median, np.mean by their definitions"
  },
  {
   "property": "C74",
   "status": "proved",
   "theorems": [
    "Verif.CoordFuncs.polar_roundtrip",
    "Verif.CoordFuncs.polar_range",
    "Verif.CoordFuncs.polar_roundtrip_back",
    "Verif.CoordFuncs.polar_roundtrip_turns",
    "Verif.CoordFuncs.spherical_roundtrip",
    "Verif.CoordFuncs.spherical_range",
    "Verif.CoordFuncs.spherical_roundtrip_back",
    "Verif.CoordFuncs.colatitude",
    "Verif.CoordFuncs.cylindrical_roundtrip",
    "Verif.CoordFuncs.cylindrical_degrees_iff"
   ],
   "note": "exact real arithmetic; cartesian_to_cylindrical ignores degrees=True: the round trip then holds exactly on the half line y=0, x>=0"
  },
  {
   "property": "C75",
   "status": "proved",
   "theorems": [
    "Verif.MatchCoords.mask_spec",
    "Verif.MatchCoords.maskExcept_spec",
    "Verif.MatchCoords.maskWarn_spec",
    "Verif.MatchCoords.count_spec",
    "Verif.MatchCoords.index_spec",
    "Verif.MatchCoords.match2D_transposed",
    "Verif.MatchCoords.match2D_documented_iff",
    "Verif.MatchCoords.match2D_wrong",
    "Verif.MatchCoords.separation_spec"
   ],
   "note": "all modes proved; 'match2D' is the transpose of what is documented"
  },
  {
   "property": "C76",
   "status": "proved",
   "theorems": [
    "Verif.MatchCoords.objects_exact",
    "Verif.MatchCoords.nth_nearest",
    "Verif.MatchCoords.nearest_is_nearest",
    "Verif.MatchCoords.nearest_other",
    "Verif.MatchCoords.nearestMode_spec",
    "Verif.MatchCoords.nearestMode_self",
    "Verif.MatchCoords.bruteForce_spec",
    "Verif.MatchCoords.objects_equal_lengths",
    "Verif.MatchCoords.objects_shorter_fails",
    "Verif.MatchCoords.objects_longer_ignored"
   ],
   "note": "scipy's tree by its specification"
  },
  {
   "property": "C77",
   "status": "proved",
   "theorems": [
    "Verif.CoordSky.era_linear",
    "Verif.CoordSky.era_range",
    "Verif.CoordSky.era_advances",
    "Verif.CoordSky.gst_range",
    "Verif.CoordSky.gst_nutation",
    "Verif.CoordSky.eqeq_iff",
    "Verif.CoordSky.eqeq_jumps",
    "Verif.CoordSky.eqorigins_spec"
   ],
   "note": "any nutation model; the equation of the equinoxes is off by a day when apparent and mean time are on different sides of 0h"
  },
  {
   "property": "C78",
   "status": "proved",
   "theorems": [
    "Verif.CoordSky.latitude_roundtrip",
    "Verif.CoordSky.latitude_monotone",
    "Verif.CoordSky.geocentric_smaller",
    "Verif.CoordSky.geocentric_is_ellipse"
   ],
   "note": "exact arithmetic, latitudes strictly between the poles"
  },
  {
   "property": "C79",
   "status": "proved",
   "theorems": [
    "Verif.CoordSky.physical_tan",
    "Verif.CoordSky.angular_arctan",
    "Verif.CoordSky.size_roundtrip",
    "Verif.CoordSky.size_defaults_iff"
   ],
   "note": "with the same usez; the defaults of the two functions differ"
  },
  {
   "property": "C80",
   "status": "proved",
   "theorems": [
    "Verif.CosmoDist.dist_zero",
    "Verif.CosmoDist.dist_strict",
    "Verif.CosmoDist.distmod_strict",
    "Verif.CosmoDist.dist_errors",
    "Verif.CosmoDist.normed_spec",
    "Verif.CosmoDist.luminosity_comoving",
    "Verif.CosmoDist.duality_flat",
    "Verif.CosmoDist.angular_curved",
    "Verif.CosmoDist.duality_iff_flat",
    "Verif.CosmoDist.dist_to_z_inverse",
    "Verif.CosmoDist.angular_to_z_fails",
    "Verif.CosmoDist.integrand_H",
    "Verif.CosmoDist.scdm_good",
    "Verif.CosmoDist.wmap7_good",
    "Verif.CosmoDist.open_good",
    "Verif.CosmoDist.someRoot_spec"
   ],
   "note": "quad as the integral, brenth as any root finder"
  },
  {
   "property": "C81",
   "status": "proved",
   "theorems": [
    "Verif.CosmoDist.H_zero",
    "Verif.CosmoDist.H_pos",
    "Verif.CosmoDist.omegas_sum",
    "Verif.CosmoDist.rho_iff",
    "Verif.CosmoDist.rho_open_wrong",
    "Verif.CosmoDist.fluxdensity"
   ],
   "note": "rho(z) is wrong in curved cosmologies"
  },
  {
   "property": "C82",
   "status": "proved",
   "theorems": [
    "Verif.CosmoRegistry.module_shows_current",
    "Verif.CosmoRegistry.choose_effect",
    "Verif.CosmoRegistry.set_other",
    "Verif.CosmoRegistry.unknown_name",
    "Verif.CosmoRegistry.constant_lost",
    "Verif.CosmoRegistry.failed_choice",
    "Verif.CosmoRegistry.example_inv"
   ],
   "note": "exact; failures included (see DESIGN, defects)"
  },
  {
   "property": "C83",
   "status": "proved",
   "theorems": [
    "Verif.CosmoRegistry.register_then_choose",
    "Verif.CosmoRegistry.class_name_unknown"
   ],
   "note": "exact; failures included (see DESIGN, defects)"
  },
  {
   "property": "C84",
   "status": "proved",
   "theorems": [
    "Verif.Phot.mag_flux_roundtrip",
    "Verif.Phot.pogson",
    "Verif.Phot.error_conversion",
    "Verif.Phot.asinh_never"
   ],
   "note": "the Pogson system completely; the documented system 'asinh' can never be installed"
  },
  {
   "property": "C85",
   "status": "proved",
   "theorems": [
    "Verif.Phot.modulus_roundtrip",
    "Verif.Phot.always_cosmological",
    "Verif.Phot.default_not_inverse",
    "Verif.Phot.redshift_off_by_thirty",
    "Verif.Phot.modulus_error_fails",
    "Verif.Phot.from_modulus_error_wrong",
    "Verif.Phot.abs_app_roundtrip",
    "Verif.Phot.ten_parsec"
   ],
   "note": "exact real arithmetic; failures included (see DESIGN, defects)"
  },
  {
   "property": "C86",
   "status": "proved",
   "theorems": [
    "Verif.Phot.lum_roundtrip",
    "Verif.Phot.lum_error_roundtrip",
    "Verif.Phot.zero_error_dropped",
    "Verif.Phot.dict_roundtrip",
    "Verif.Phot.dict_unknown_band",
    "Verif.Phot.color_roundtrip",
    "Verif.Phot.surface_brightness"
   ],
   "note": "a zero error returns a value instead of the documented pair"
  },
  {
   "property": "C87",
   "status": "proved",
   "theorems": [
    "Verif.PhotConv.BV_roundtrip",
    "Verif.PhotConv.BV_monotone",
    "Verif.PhotConv.interp_inverse",
    "Verif.PhotConv.interp_segment",
    "Verif.PhotConv.gr_monotone",
    "Verif.PhotConv.gr_inverse",
    "Verif.PhotConv.gr_roundtrip"
   ],
   "note": "exact arithmetic, np.roots as the exact complex roots in any order"
  },
  {
   "property": "C88",
   "status": "proved",
   "theorems": [
    "Verif.PhotConv.dict_from_ugriz",
    "Verif.PhotConv.dict_from_UBVRI",
    "Verif.PhotConv.dict_raises",
    "Verif.PhotConv.dict_neither",
    "Verif.PhotConv.dimming",
    "Verif.PhotConv.jester_colors",
    "Verif.PhotConv.there_and_back"
   ],
   "note": "magnitudes as rationals"
  },
  {
   "property": "C89",
   "status": "proved",
   "theorems": [
    "Verif.PhotBand.band_shape",
    "Verif.PhotBand.band_scale",
    "Verif.PhotBand.band_reconstruct",
    "Verif.PhotBand.normalized_fixed",
    "Verif.PhotBand.units_peak",
    "Verif.PhotBand.flux_scale",
    "Verif.PhotBand.mag_scale",
    "Verif.PhotBand.zeropoint",
    "Verif.PhotBand.overlap_checked",
    "Verif.PhotBand.finer_grid_kept",
    "Verif.PhotBand.array_ignores_response",
    "Verif.PhotBand.array_vs_spectrum"
   ],
   "note": "simps as any homogeneous functional, linear interpolation"
  },
  {
   "property": "C90",
   "status": "proved",
   "theorems": [
    "Verif.PhotObs.sizes",
    "Verif.PhotObs.constructed",
    "Verif.PhotObs.assigned_magnitudes",
    "Verif.PhotObs.assigned_errors",
    "Verif.PhotObs.errors_consistent",
    "Verif.PhotObs.flux_magnitudes_fail",
    "Verif.PhotObs.fluxerr_lost",
    "Verif.PhotObs.errors_reinterpreted"
   ],
   "note": "exact real arithmetic; failures included (see DESIGN, defects)"
  },
  {
   "property": "C91",
   "status": "proved",
   "theorems": [
    "Verif.Stats.mad_spec",
    "Verif.Stats.mad_affine",
    "Verif.Stats.mad_perm",
    "Verif.Stats.mad_robust",
    "Verif.Stats.mad_zero_iff",
    "Verif.Stats.cenestimator_ignored",
    "Verif.Stats.biweight_spec",
    "Verif.Stats.biweight_nonneg",
    "Verif.Stats.biweight_perm",
    "Verif.Stats.biweight_affine",
    "Verif.Stats.biweight_outlier",
    "Verif.Stats.biweight_degenerate"
   ],
   "note": "exact real arithmetic; failures included (see DESIGN, defects)"
  },
  {
   "property": "C92",
   "status": "proved",
   "theorems": [
    "Verif.Stats.quartile_counts",
    "Verif.Stats.quartile_affine",
    "Verif.Stats.iqr_spec",
    "Verif.Stats.iqr_robust"
   ],
   "note": "exact arithmetic; erfinv(.5) as a positive constant"
  },
  {
   "property": "C93",
   "status": "proved",
   "theorems": [
    "Verif.StatsPca.normalised",
    "Verif.StatsPca.covariance_eq",
    "Verif.StatsPca.roundtrip",
    "Verif.StatsPca.truncated_roundtrip",
    "Verif.StatsPca.scores_uncorrelated",
    "Verif.StatsPca.energies_sum",
    "Verif.StatsPca.reconstruction_error",
    "Verif.StatsPca.energy_thresholds_fail",
    "Verif.StatsPca.deproject_error_iff",
    "Verif.StatsPca.deproject_full",
    "Verif.StatsPca.subtractPC_iff",
    "Verif.StatsPca.sigclip_fails",
    "Verif.StatsPca.sigclip_square"
   ],
   "note": "np.linalg.eig as a parameter"
  },
  {
   "property": "C94",
   "status": "proved",
   "theorems": [
    "Verif.StatsMoments.default_axes",
    "Verif.StatsMoments.raises_iff",
    "Verif.StatsMoments.seq_value",
    "Verif.StatsMoments.scalar_value",
    "Verif.StatsMoments.background_subtracted",
    "Verif.StatsMoments.normalised",
    "Verif.StatsMoments.shift_scale",
    "Verif.StatsMoments.separable",
    "Verif.StatsMoments.point_source",
    "Verif.StatsMoments.centroid_within",
    "Verif.StatsMoments.std_value",
    "Verif.StatsMoments.std_of_grid",
    "Verif.StatsMoments.integer_truncated"
   ],
   "note": "exact real arithmetic; failures included (see DESIGN, defects)"
  },
  {
   "property": "C95",
   "status": "proved",
   "theorems": [
    "Verif.StatsBins.bins_spec",
    "Verif.StatsBins.bins_equal",
    "Verif.StatsBins.weight_value",
    "Verif.StatsBins.weights_range",
    "Verif.StatsBins.equal_shares",
    "Verif.StatsBins.total_weight",
    "Verif.StatsBins.n_ignored",
    "Verif.StatsBins.one_bin_fails",
    "Verif.StatsBins.integer_weights_zero",
    "Verif.StatsBins.integer_weights"
   ],
   "note": "exact real arithmetic; failures included (see DESIGN, defects)"
  },
  {
   "property": "C96",
   "status": "proved",
   "theorems": [
    "Verif.Registry.group_lookup",
    "Verif.Registry.names_unique",
    "Verif.Registry.names_stay",
    "Verif.Registry.register_spec",
    "Verif.Registry.register_wrong",
    "Verif.Registry.addToGroup_spec",
    "Verif.Registry.addToGroup_unknown",
    "Verif.Registry.unknown_name",
    "Verif.Registry.getObjects_pure",
    "Verif.Registry.getObjects_all",
    "Verif.Registry.getObjects_one",
    "Verif.Registry.getObjects_group",
    "Verif.Registry.register_then_get",
    "Verif.Registry.getObjects_chars",
    "Verif.Registry.getObjects_list",
    "Verif.Registry.getObjects_seq",
    "Verif.Registry.addmissing_spec",
    "Verif.Registry.nameless_loops",
    "Verif.Registry.nameless_replaces",
    "Verif.Registry.self_named_group",
    "Verif.Registry.cannot_remove"
   ],
   "note": "exact; failures included (see DESIGN, defects)"
  },
  {
   "property": "C97",
   "status": "proved",
   "theorems": [
    "Verif.Indent.change_indentation",
    "Verif.Indent.unindented_unchanged",
    "Verif.Indent.change_once",
    "Verif.Indent.append_doc",
    "Verif.Indent.replace_doc",
    "Verif.Indent.firstAt_of_noBrace",
    "Verif.Indent.no_docstring",
    "Verif.Indent.doc_examples"
   ],
   "note": "exact; failures included (see DESIGN, defects)"
  },
  {
   "property": "C98",
   "status": "proved",
   "theorems": [
    "Verif.Extinction.alambda_spec",
    "Verif.Extinction.unknown_band",
    "Verif.Extinction.flux_magnitude",
    "Verif.Extinction.flux_lines",
    "Verif.Extinction.flux_compose",
    "Verif.Extinction.flux_restored",
    "Verif.Extinction.spectrum_point",
    "Verif.Extinction.color_spec",
    "Verif.Extinction.color_fails",
    "Verif.Extinction.constructor_inverted"
   ],
   "note": "exact real arithmetic; failures included (see DESIGN, defects)"
  },
  {
   "property": "C99",
   "status": "proved",
   "theorems": [
    "Verif.Extinction.ebmv_roundtrip",
    "Verif.Extinction.ebmv_constructor",
    "Verif.Extinction.calibrated_ratio",
    "Verif.Extinction.calibrated_balmer",
    "Verif.Extinction.balmer_lines",
    "Verif.Extinction.calibration_fails",
    "Verif.Extinction.ccm_range",
    "Verif.Extinction.ccm_visual",
    "Verif.Extinction.ccm_joint",
    "Verif.Extinction.deprecated_spec",
    "Verif.Extinction.class_vs_deprecated",
    "Verif.Extinction.class_differs",
    "Verif.Extinction.fm_spec"
   ],
   "note": "exact real arithmetic; failures included (see DESIGN, defects)"
  }
 ]
}